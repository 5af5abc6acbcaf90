import Verif.DeepCopy.Lemmas5
namespace Verif.DeepCopy

theorem fieldGet_append {f : String} {v : Val} {rest : List (String × Val)} : ∀ {done : List (String × Val)}, f ∉ done.map (·.1) → fieldGet f (done ++ (f, v) :: rest) = some v
  | [], _ => by simp [fieldGet]
  | (g, w) :: done, h => by
    simp only [List.map_cons, List.mem_cons, not_or] at h
    simp only [List.cons_append, fieldGet, if_neg (Ne.symm h.1)]
    exact fieldGet_append h.2

theorem fieldSet_append {f : String} {v w : Val} {rest : List (String × Val)} : ∀ {done : List (String × Val)}, f ∉ done.map (·.1) → fieldSet f w (done ++ (f, v) :: rest) = done ++ (f, w) :: rest
  | [], _ => by simp [fieldSet]
  | (g, x) :: done, h => by
    simp only [List.map_cons, List.mem_cons, not_or] at h
    simp only [List.cons_append, fieldSet, if_neg (Ne.symm h.1), fieldSet_append h.2]

theorem fields_unique {α : Type} {f : String} {u t : α} : ∀ {all : List (String × α)}, (all.map (·.1)).Nodup → (f, u) ∈ all → (f, t) ∈ all → u = t
  | [], _, h, _ => by cases h
  | p :: all, hnd, hu, hm => by
    simp only [List.map_cons, List.nodup_cons] at hnd
    obtain hu | hu := List.mem_cons.1 hu <;> obtain hm | hm := List.mem_cons.1 hm
    · rw [← hu] at hm
      cases hm
      rfl
    · exact absurd (List.mem_map.2 ⟨_, hm, by rw [← hu]⟩) hnd.1
    · exact absurd (List.mem_map.2 ⟨_, hu, by rw [← hm]⟩) hnd.1
    · exact fields_unique hnd.2 hu hm

theorem fieldGet_mem {f : String} {v : Val} : ∀ {vs : List (String × Val)}, (vs.map (·.1)).Nodup → (f, v) ∈ vs → fieldGet f vs = some v
  | [], _, h => by cases h
  | (g, w) :: vs, hnd, h => by
    simp only [List.map_cons, List.nodup_cons] at hnd
    obtain h | h := List.mem_cons.1 h
    · cases h
      simp [fieldGet]
    · have : g ≠ f := fun e => hnd.1 (List.mem_map.2 ⟨_, h, e.symm⟩)
      simp only [fieldGet, if_neg this]
      exact fieldGet_mem hnd.2 h

section
variable {P : Prog} {W : World} {into : Into}

theorem HasFields.keys {H : Heap} {Q : Nat → Prop} : ∀ {fs vs Ts}, HasFields P H Q fs vs Ts → vs.map (·.1) = fs.map (·.1)
  | _, _, _, .nil => rfl
  | _, _, _, .cons _ h => by simp [HasFields.keys h]

theorem genFields_ok (hW : W.Copies P) {block : Ty → Ty → Option Gen} {T : Tree} (hs : SubOk P into T) (hb : BlockOk P W into block T) {t' : Ty} {all : List (String × Ty)} (ht' : P.underlying t' = .struct all)
    (hnd : (all.map (·.1)).Nodup) : ∀ (fs : List (String × Ty)) (g : Gen), P.genFields block fs = some g → g.errs = 0 → P.CompilesAll g.code t' → Stmt.noAddrs g.code = true → (∀ p ∈ fs, p ∈ all) →
    ∀ (H : Heap) (Q : Nat → Prop) (i o : Loc) (vs done vsr : List (String × Val)) (Ts : List (String × Tree)), HasFields P H Q fs vsr Ts → (∀ k T', (k, T') ∈ Ts → T'.size < T.size) →
      H.read i = some (.struct vs) → (∀ f v, (f, v) ∈ vsr → fieldGet f vs = some v) → H.read o = some (.struct (done ++ vsr)) → ((done ++ vsr).map (·.1)).Nodup → i.addr ≠ o.addr → (∀ a, Q a → a ≠ o.addr) →
      ∃ H' new, P.execs W into g.code H i o = .ok H' ∧ Wrote H o (.struct (done ++ new)) H' ∧ HasFields P H' (New H H') fs new Ts
  | [], g, hg, _, _, _, _, H, Q, i, o, vs, done, vsr, Ts, h1, _, _, _, h4, _, _, _ => by
    cases hg
    cases h1
    exact ⟨H, [], rfl, Wrote.refl h4, .nil⟩
  | (f, t) :: fs, g, hg, he, hc, hna, hall, H, Q, i, o, vs, done, vsr, Ts, h1, h2, h3, h3', h4, h5, h6, h7 => by
    cases h1 with
    | @cons _ _ _ v vsr T1 Ts hv hvs =>
      have hin : ∀ f' v', (f', v') ∈ vsr → fieldGet f' vs = some v' := fun f' v' hm => h3' f' v' (List.mem_cons_of_mem _ hm)
      have hget := h3' f v List.mem_cons_self
      have hfd : f ∉ done.map (·.1) := by
        rw [List.map_append, List.nodup_append] at h5
        exact fun hm => h5.2.2 f hm f (by simp) rfl
      have hall' : ∀ p ∈ fs, p ∈ all := fun p hm => hall p (List.mem_cons_of_mem _ hm)
      have hsz : ∀ k T', (k, T') ∈ Ts → T'.size < T.size := fun k T' hm => h2 k T' (List.mem_cons_of_mem _ hm)
      have hs1 : T1.size < T.size := h2 f T1 List.mem_cons_self
      have hri : H.read (i.sub (.field f)) = some v := by
        rw [read_sub h3]
        simp [Val.get, hget, get_nil]
      have hro : H.read (o.sub (.field f)) = some v := by
        rw [read_sub h4]
        simp [Val.get, fieldGet_append hfd, get_nil]
      have hoo := read_lt h4
      -- one field, and then the others
      have step : ∀ {c : List Stmt} {g' : Gen} {H1 : Heap} {w : Val}, P.genFields block fs = some g' → g'.errs = 0 → P.CompilesAll g'.code t' → Stmt.noAddrs g'.code = true → Wrote H (o.sub (.field f)) w H1 →
          Has P H1 (New H H1) t w T1 → (∀ H', P.execs W into g'.code H1 i o = .ok H' → P.execs W into c H i o = .ok H') →
          ∃ H' new, P.execs W into c H i o = .ok H' ∧ Wrote H o (.struct (done ++ new)) H' ∧ HasFields P H' (New H H') ((f, t) :: fs) new ((f, T1) :: Ts) := by
        intro c g' H1 w a1 a2 a3 a4 a5 a6 a7
        have hw : Wrote H o (.struct (done ++ (f, w) :: vsr)) H1 := by
          refine (Wrote.refl h4).sub a5 ?_
          simp [Val.set, fieldGet_append hfd, set_nil, fieldSet_append hfd]
        obtain ⟨H', new, b1, b2, b3⟩ := genFields_ok hW hs hb ht' hnd fs g' a1 a2 a3 a4 hall' H1 (fun a => Q a ∧ a < H.length) i o vs (done ++ [(f, w)]) vsr Ts
          (hvs.move fun a ha hq => ⟨⟨hq, ha⟩, hw.2.1 a ha (h7 a hq)⟩) hsz (hw.keeps h6 h3) hin (by simpa using hw.read) (by simpa using h5) h6 (fun a ha => h7 a ha.1)
        refine ⟨H', (f, w) :: new, a7 _ b1, by simpa using hw.trans b2, .cons ?_ ?_⟩
        · exact a6.apart b2 (o := o) hoo
        · exact b3.move fun a _ hq => ⟨⟨Nat.le_trans hw.1 hq.1, hq.2⟩, rfl⟩
      -- a block for the field
      have hblock : ∀ {b r : Gen}, block t t = some b → b.errs = 0 → P.CompilesAll (.fieldBlock f b.code :: r.code) t' → Stmt.noAddrs (.fieldBlock f b.code :: r.code) = true → P.genFields block fs = some r → r.errs = 0 →
          ∃ H' new, P.execs W into (.fieldBlock f b.code :: r.code) H i o = .ok H' ∧ Wrote H o (.struct (done ++ new)) H' ∧ HasFields P H' (New H H') ((f, t) :: fs) new ((f, T1) :: Ts) := by
        intro b r b1 b2 b3 b4 b5 b6
        have b4' : Stmt.noAddrs b.code = true ∧ Stmt.noAddrs r.code = true := by simpa [Stmt.noAddrs, Stmt.noAddr] using b4
        by_cases hn : T1 = .nil
        · have := hv.nil_iff.2 hn
          subst this
          refine step b5 b6 b3.2 b4'.2 (Wrote.refl hro) (by rw [hn]; exact hv.nil_any _ _ hn) fun H' hH' => ?_
          simp [Prog.execs, Prog.exec, load_ok hri, hH']
        · have hvn : v ≠ .nil := fun h => hn (hv.nil_iff.1 h)
          have hcb : P.CompilesAll b.code t := by
            have := b3.1
            simp only [Prog.Compiles, ht'] at this
            obtain ⟨u, hu, hcu⟩ := this
            have : u = t := fields_unique hnd hu (hall (f, t) List.mem_cons_self)
            rwa [this] at hcu
          obtain ⟨H1, w, c1, c2, c3⟩ := hb t t t b b1 b2 rfl rfl hcb b4'.1 T1 hn hs1 H Q (i.sub (.field f)) (o.sub (.field f)) v _ hv hri hro h6 h7
          refine step b5 b6 b3.2 b4'.2 c2 c3 fun H' hH' => ?_
          simp only [Prog.execs, Prog.exec, load_ok hri, ok_bind]
          cases v <;> simp_all
      rw [Prog.genFields] at hg
      split at hg
      · rename_i hm
        rw [← hasAny_iff] at hm
        split at hg
        · split at hg
          · rename_i b r hb1 hr1
            cases hg
            simp only at he hc hna ⊢
            exact hblock hb1 (by omega) hc hna hr1 (by omega)
          · cases hg
        · obtain ⟨r, hr1, hr2⟩ := Option.map_eq_some_iff.1 hg
          subst hr2
          simp only at he hc hna ⊢
          split at hc
          · rename_i hy
            rw [if_pos hy] at hna ⊢
            obtain ⟨n, hn, hme⟩ := hc.1
            have han := hasAny_owner (owner_named hn) hm
            obtain ⟨H1, w, c1, c2, c3⟩ := (callInto_ok (into := into) (T := T1) hc.1 fun n' hn' hme' => by
              rw [hn] at hn'
              cases hn'
              exact hs n T1 hme (.inl han) fun _ => han) H Q (i.sub (.field f)) (o.sub (.field f)) v _ hv hri hro h6 h7
            refine step hr1 he hc.2 (by simpa [Stmt.noAddrs, Stmt.noAddr] using hna) c2 c3 fun H' hH' => ?_
            simp only at c1
            simp only [Prog.execs, Prog.exec, c1, ok_bind, hH']
          · rename_i hy
            rw [if_neg hy] at hna ⊢
            obtain ⟨⟨n, hn, hme⟩, m, hm1, hm2, hm3⟩ := hc.1
            rw [owner_named hn] at hm1
            cases hm1
            have han := hasAny_owner (owner_named hn) hm
            obtain ⟨H0, w, c1, c2, c3⟩ := callCopy_value (into := into) hW hn hme hm3 (T := T1) (fun _ => .inr (hs n T1 hme (.inl han) fun _ => han)) hv hri
            obtain ⟨H1, d1, d2, d3⟩ := store_made c2 hro c3
            refine step hr1 he hc.2 (by simpa [Stmt.noAddrs, Stmt.noAddr] using hna) d2 d3 fun H' hH' => ?_
            simp only [Prog.execs, Prog.exec, c1, ok_bind, d1, hH']
      · split at hg
        · split at hg
          · rename_i b r hb1 hr1
            cases hg
            simp only at he hc hna ⊢
            exact hblock hb1 (by omega) hc hna hr1 (by omega)
          · cases hg
        · split at hg
          · rename_i hbas
            refine step hg he hc hna (Wrote.refl hro) (hv.basic_any hbas) fun H' hH' => hH'
          · rename_i sfs hst
            obtain ⟨r, hr1, hr2⟩ := Option.map_eq_some_iff.1 hg
            subst hr2
            simp only at he hc hna ⊢
            split at hc
            · rename_i hf
              rw [if_pos hf] at hna ⊢
              obtain ⟨H1, d1, d2, d3⟩ := store_ok hro v
              refine step hr1 he hc.2 (by simpa [Stmt.noAddrs, Stmt.noAddr] using hna) d2 (Has.fine hv hf) fun H' hH' => ?_
              simp only [Prog.execs, Prog.exec, load_ok hri, ok_bind, d1, hH']
            · rename_i hf
              rw [if_neg hf] at hna ⊢
              obtain ⟨H1, w, c1, c2, c3⟩ := (callInto_ok (into := into) (T := T1) hc.1 fun n hn hme => hs n T1 hme (.inr hs1) fun hnil => absurd hnil (hv.struct_ne hst)) H Q
                (i.sub (.field f)) (o.sub (.field f)) v _ hv hri hro h6 h7
              refine step hr1 he hc.2 (by simpa [Stmt.noAddrs, Stmt.noAddr] using hna) c2 c3 fun H' hH' => ?_
              simp only at c1
              simp only [Prog.execs, Prog.exec, c1, ok_bind, hH']
          · cases hg
            cases he

theorem genBlock_ok (hP : P.Ok) (hW : W.Copies P) {T0 : Tree} (hs0 : SubOk P into T0) : ∀ (m : Nat) (name t t' : Ty) (g : Gen) (T : Tree), P.genBlock m name t = some g → g.errs = 0 → P.underlying name = P.underlying t →
    P.underlying t' = P.underlying t → P.CompilesAll g.code t' → Stmt.noAddrs g.code = true → T ≠ .nil → T.size ≤ T0.size → CopyOk P (P.execs W into g.code) t T
  | 0, _, _, _, _, _, hg, _, _, _, _, _, _, _ => by cases hg
  | m + 1, name, t, t', g, T, hg, he, hn, ht', hc, hna, hT, hle => by
    have hs := hs0.mono hle
    have hb : BlockOk P W into (P.genBlock m) T := fun name u u' g a1 a2 a3 a4 a5 a6 T' a7 a8 => genBlock_ok hP hW hs0 m name u u' g T' a1 a2 a3 a4 a5 a6 a7 (by omega)
    rw [Prog.genBlock, Prog.genStep] at hg
    split at hg
    · rename_i ha
      cases hg
      obtain ⟨⟨n, hn, hme⟩, k, hm1, hm2, hm3⟩ := hc.1
      rw [owner_named hn] at hm1
      cases hm1
      have han := hasAny_owner (owner_named hn) ha.2
      intro H Q i o v x hv hi ho hio hQ
      obtain ⟨H0, w, c1, c2, c3⟩ := callCopy_value (into := into) hW hn hme hm3 (T := T) (fun _ => .inr (hs n T hme (.inl han) fun _ => han)) hv hi
      obtain ⟨H1, d1, d2, d3⟩ := store_made c2 ho c3
      exact ⟨H1, w, by simp [Prog.execs, Prog.exec, c1, d1], d2, d3⟩
    · rename_i ha
      split at hg
      · rename_i hbas
        cases hg
        have hno : (P.hasCopy t).isSome = false := by
          cases h : (P.hasCopy t).isSome
          · rfl
          · exact absurd ⟨by rw [hbas]; rfl, by simp [Prog.hasAny, h]⟩ ha
        simp only [hno]
        intro H Q i o v x hv hi ho hio hQ
        obtain ⟨H1, d1, d2, d3⟩ := store_ok ho v
        exact ⟨H1, v, by simp [Prog.execs, Prog.exec, load_ok hi, d1], d2, hv.basic_any hbas⟩
      · rename_i k e hmap
        exact genMap_ok hP hW hg he hmap hc hna hT hs hb
      · rename_i e hsl
        exact genSlice_ok hg he hsl (by rw [hn, hsl]) (by rw [ht', hsl]) hc hna hT hs hb
      · rename_i fs hst
        obtain ⟨r, hr1, hr2⟩ := Option.map_eq_some_iff.1 hg
        subst hr2
        simp only at he hc hna ⊢
        intro H Q i o v x hv hi ho hio hQ
        have hv' := has_underlying.1 hv
        rw [hst] at hv'
        cases hv' with
        | @struct _ vs Ts hnd hfs =>
          obtain ⟨H1, d1, d2, d3⟩ := store_ok ho (.struct vs)
          have hk := hfs.keys
          obtain ⟨H', new, b1, b2, b3⟩ := genFields_ok hW hs hb (by rw [ht', hst]) hnd fs r hr1 he hc.2 (by simpa [Stmt.noAddrs, Stmt.noAddr] using hna) (fun _ h => h) H1 (fun a => Q a ∧ a < H.length) i o vs [] vs Ts
            (hfs.move fun a ha hq => ⟨⟨hq, ha⟩, d2.2.1 a ha (hQ a hq)⟩) (fun k T' hm => by have := Tree.size_entry hm; simp only [Tree.size]; omega) (d2.keeps hio hi)
            (fun f v hm => fieldGet_mem (by rw [hk]; exact hnd) hm) (by simpa using d2.read) (by simpa [hk] using hnd) hio (fun a ha => hQ a ha.1)
          refine ⟨H', .struct new, by simp [Prog.execs, Prog.exec, load_ok hi, d1, b1], d2.trans b2, has_underlying.2 ?_⟩
          rw [hst]
          exact .struct hnd (b3.move fun a _ hq => ⟨⟨Nat.le_trans d2.1 hq.1, hq.2⟩, rfl⟩)
      · rename_i e hptr
        exact genPtr_ok hP hW hg he hptr (by rw [ht', hptr]) hc hna hT hs hb
      · cases hg
        cases he

end

end Verif.DeepCopy

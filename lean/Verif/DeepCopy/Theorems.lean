import Verif.DeepCopy.Lemmas6
/-!
# C43: generated methods make deep copies
-/
namespace Verif.DeepCopy

/-- The bodies of `DeepCopyInto` that are generated. -/
def Prog.code (P : Prog) (depth : Nat) (n : String) : Option (List Stmt) :=
  if P.generated n then
    match P.genInto depth n with
    | some (some g) => some g.code
    | _ => none
  else none

/-- The run ends, without an error, and what it wrote compiles; and no copy in a loop over a map has its address taken (`C43_violated_nil`). -/
def Prog.Clean (P : Prog) (depth : Nat) : Prop :=
  ∀ n, P.generated n = true → P.genInto depth n = some none ∨
    ∃ g, P.genInto depth n = some (some g) ∧ g.errs = 0 ∧ P.CompilesAll g.code (.named n) ∧ Stmt.noAddrs g.code = true

section
variable {P : Prog} {W : World}

theorem run_ok (hP : P.Ok) (hW : W.Copies P) {depth : Nat} (hcl : P.Clean depth) : ∀ (d : Nat) (n : String) (T : Tree), (P.hasAny (.named n) = true ∧ 1 ≤ d ∨ T.size < d) → (T = .nil → P.hasAny (.named n) = true) →
    CopyOk P (P.run W (P.code depth) d n) (.named n) T
  | 0, n, T, h, _ => by
    obtain h | h := h
    · omega
    · omega
  | d + 1, n, T, h, hnil => by
    intro H Q i o v x hv hi ho hio hQ
    cases hc : P.code depth n with
    | none =>
      have hown : P.generated n = false ∨ P.hasAny (.named n) = true := by
        cases hgen : P.generated n with
        | false => exact .inl rfl
        | true =>
          refine .inr ?_
          unfold Prog.code at hc
          rw [if_pos hgen] at hc
          obtain hg | ⟨g, hg, -⟩ := hcl n hgen
          · unfold Prog.genInto at hg
            split at hg
            · rename_i hin
              simp [Prog.hasAny, hin]
            · split at hg
              · cases hg
              · obtain ⟨g, -, h⟩ := Option.map_eq_some_iff.1 hg
                cases h
          · rw [hg] at hc
            cases hc
      obtain ⟨H1, v', h1, h2, h3⟩ := hW n hown H Q v T hv
      obtain ⟨H', k1, k2, k3⟩ := store_made h2 ho h3
      exact ⟨H', v', by simp [Prog.run, hc, load_ok hi, h1, k1], k2, k3⟩
    | some c =>
      have hrun : P.run W (P.code depth) (d + 1) n H i o = P.execs W (P.run W (P.code depth) d) c H i o := by rw [Prog.run, hc]
      rw [hrun]
      unfold Prog.code at hc
      split at hc
      · rename_i hgen
        obtain hg | ⟨g, hg, he, hcomp, hna⟩ := hcl n hgen
        · rw [hg] at hc
          cases hc
        · rw [hg] at hc
          cases hc
          unfold Prog.genInto at hg
          split at hg
          · cases hg
          · split at hg
            · rename_i onPtr hcp
              cases hg
              have hman : (P.manual n).copy.isSome = true := by
                have : P.hasCopy (.named n) = (P.manual n).copy := rfl
                rw [← this, hcp]
                rfl
              simp only at hcomp ⊢
              cases onPtr with
              | false =>
                simp only [Bool.false_eq_true, if_false] at hcomp ⊢
                obtain ⟨⟨m, hm, hme⟩, k, hm1, hm2, hm3⟩ := hcomp.1
                rw [owner_named hm] at hm1
                cases hm1
                cases hm
                obtain ⟨H0, w, c1, c2, c3⟩ := callCopy_value (into := P.run W (P.code depth) d) hW rfl hme hm3 (T := T) (fun _ => .inl hman) hv hi
                obtain ⟨H1, d1, d2, d3⟩ := store_made c2 ho c3
                exact ⟨H1, w, by simp [Prog.execs, Prog.exec, c1, d1], d2, d3⟩
              | true =>
                simp only [if_true] at hcomp ⊢
                obtain ⟨⟨m, hm, hme⟩, k, hm1, hm2, hm3⟩ := hcomp.1
                rw [owner_named hm] at hm1
                cases hm1
                cases hm
                obtain ⟨H0, l, w, c1, c2, c3, c4, c5⟩ := callCopy_addr (into := P.run W (P.code depth) d) hW rfl hme hm3 (T := T) (.inl hman) hv hi
                obtain ⟨H1, d1, d2, d3⟩ := store_made c2 ho c5
                exact ⟨H1, w, by simp [Prog.execs, Prog.exec, c1, load_ok c4, d1], d2, d3⟩
            · rename_i hno _ hcp
              obtain ⟨g', hg', heq⟩ := Option.map_eq_some_iff.1 hg
              cases heq
              have hany : P.hasAny (.named n) = false := by
                unfold Prog.hasAny
                rw [hcp]
                simpa using hno
              have hT : T ≠ .nil := fun e => by rw [hnil e] at hany; cases hany
              have hsz : T.size ≤ d := by
                obtain h | h := h
                · rw [hany] at h
                  cases h.1
                · omega
              have hpos := T.size_pos
              have hsub : SubOk P (P.run W (P.code depth) d) T := fun n' T' _ ho' hn' =>
                run_ok hP hW hcl d n' T' (ho'.imp (fun a => ⟨a, by omega⟩) fun a => by omega) hn'
              exact genBlock_ok hP hW hsub depth (.named n) (.named n) (.named n) g T hg' he rfl rfl hcomp hna hT (Nat.le_refl _) H Q i o v x hv hi ho hio hQ
      · cases hc

/-- **C43** (`DeepCopyInto`).  If the run ends without an error and the code compiles, then `in.DeepCopyInto(out)` ends for every value `*in` that does not contain itself (and is not nil, as the comment of the method asks
for, unless the type has methods of its own), it changes no memory but `*out`, and then `*out` stands for what `*in` stands for, and refers to new memory only.
Any deeper recursion than the size of the value is enough.  Methods that are not generated are assumed to copy.

Partial: it does not hold of all code that is generated (see the theorems `C43_violated…`): `Clean` leaves code out that does not compile, and a panic for maps of pointers. -/
theorem C43_deepCopyInto_partial (hP : P.Ok) (hW : W.Copies P) {depth : Nat} (hcl : P.Clean depth) (n : String) {T : Tree} {H : Heap} {Q : Nat → Prop} {i o : Loc} {v x : Val} (hv : Has P H Q (.named n) v T)
    (hn : v ≠ .nil ∨ P.hasAny (.named n) = true) (hi : H.read i = some v) (ho : H.read o = some x) (hio : i.addr ≠ o.addr) (hQ : ∀ a, Q a → a ≠ o.addr) {d : Nat} (hd : T.size < d) :
    ∃ H' v', P.run W (P.code depth) d n H i o = .ok H' ∧ H'.read o = some v' ∧ Has P H' (New H H') (.named n) v' T ∧ (∀ a, a < H.length → a ≠ o.addr → H'[a]? = H[a]?) ∧ H.length ≤ H'.length := by
  obtain ⟨H', v', h1, h2, h3⟩ := run_ok hP hW hcl d n T (.inr hd) (fun e => hn.resolve_left fun h => h (hv.nil_iff.2 e)) H Q i o v x hv hi ho hio hQ
  exact ⟨H', v', h1, h2.read, h3, h2.2.1, h2.1⟩

/-- **C43** (`DeepCopy`).  The same for `DeepCopy`, which gives a pointer to the copy, if the receiver is a pointer, or the copy; nothing that was in memory before is changed. -/
theorem C43_deepCopy_partial (hP : P.Ok) (hW : W.Copies P) {depth : Nat} (hcl : P.Clean depth) (n : String) (hm : P.methods n = true) {T : Tree} {H : Heap} {Q : Nat → Prop} {i : Loc} {v : Val}
    (hv : Has P H Q (.named n) v T) (hi : H.read i = some v) {d : Nat} (hd : T.size < d) (hn : v ≠ .nil ∨ P.hasAny (.named n) = true ∨ P.recvPtr n = false) :
    ∃ H' r, P.callCopy W (P.run W (P.code depth) d) (.named n) H i = .ok (H', r) ∧ Extends H H' ∧
      (P.recvPtr n = true → ∃ o v', r = .ptr o ∧ New H H' o.addr ∧ H'.read o = some v' ∧ Has P H' (New H H') (.named n) v' T) ∧
      (P.recvPtr n = false → Has P H' (New H H') (.named n) r T) := by
  cases hp : P.recvPtr n with
  | true =>
    have hi' : CopyOk P (P.run W (P.code depth) d n) (.named n) T := run_ok hP hW hcl d n T (.inr hd) fun e => by
      obtain h | h | h := hn
      · exact absurd (hv.nil_iff.2 e) h
      · exact h
      · rw [hp] at h; cases h
    obtain ⟨H', o, v', h1, h2, h3, h4, h5⟩ := callCopy_addr hW rfl hm hp (.inr hi') hv hi
    exact ⟨H', .ptr o, h1, h2, fun _ => ⟨o, v', rfl, h3, h4, h5⟩, fun h => (by cases h)⟩
  | false =>
    obtain ⟨H', v', h1, h2, h3⟩ := callCopy_value (into := P.run W (P.code depth) d) hW rfl hm hp (T := T) (fun hT => .inr (run_ok hP hW hcl d n T (.inr hd) fun e => absurd e hT)) hv hi
    exact ⟨H', v', h1, h2, fun h => (by cases h), fun _ => h3⟩

/-- **C43** (no shared memory).  After a copy, whatever is changed in memory that the original can refer to, the copy stands for what it stood for; and whatever is changed in the new memory, the original does. -/
theorem C43_independent {t : Ty} {T : Tree} {H H' : Heap} {Q : Nat → Prop} {v v' : Val} (hv : Has P H Q t v T) (he : Extends H H') (hv' : Has P H' (New H H') t v' T) :
    (∀ H'', ChangedOnly (fun a => a < H.length) H' H'' → Has P H'' (New H H') t v' T) ∧ ∀ H'', ChangedOnly (fun a => H.length ≤ a) H' H'' → Has P H'' Q t v T :=
  ⟨fun _ hc => hv'.move fun a _ hq => ⟨hq, hc a (by have := hq.1; omega)⟩, fun _ hc => hv.move fun a ha hq => ⟨hq, by rw [hc a (by omega), he.getElem? ha]⟩⟩

end

end Verif.DeepCopy

import Verif.DeepCopy.Lemmas3
namespace Verif.DeepCopy

section
variable {P : Prog} {W : World} {into : Into}

/-- The methods that are called copy what is in a tree, and what has methods of its own. -/
def SubOk (P : Prog) (into : Into) (T : Tree) : Prop :=
  ∀ n T', P.methods n = true → (P.hasAny (.named n) = true ∨ T'.size < T.size) → (T' = .nil → P.hasAny (.named n) = true) → CopyOk P (into n) (.named n) T'

theorem SubOk.mono {T T' : Tree} (h : SubOk P into T) (hs : T'.size ≤ T.size) : SubOk P into T' :=
  fun n T'' hm ho hn => h n T'' hm (ho.imp id fun h => Nat.lt_of_lt_of_le h hs) hn

/-- Write a value that was made. -/
theorem store_made {H H1 : Heap} {o : Loc} {x v' : Val} {t : Ty} {T : Tree} (he : Extends H H1) (ho : H.read o = some x) (hv : Has P H1 (New H H1) t v' T) :
    ∃ H', store H1 o v' = .ok H' ∧ Wrote H o v' H' ∧ Has P H' (New H H') t v' T := by
  obtain ⟨H', h1, h2, h3⟩ := store_ok (he.read ho) v'
  exact ⟨H', h1, Wrote.after he h2 (read_lt ho), hv.apart h2 (read_lt ho)⟩

theorem hasAny_owner {t : Ty} {n : String} (h : P.owner t = some n) (ha : P.hasAny t = true) : P.hasAny (.named n) = true := by
  have h2 : P.owner (.named n) = some n := rfl
  simpa only [Prog.hasAny, Prog.hasCopy, Prog.hasInto, h, h2] using ha

theorem hasAny_iff {t : Ty} : P.hasAny t = (P.hasInto t || (P.hasCopy t).isSome) := by
  unfold Prog.hasAny
  rw [Bool.or_comm]

theorem underlying_named {t : Ty} {n : String} (h : P.unalias t = .named n) : P.underlying t = P.under n := by
  unfold Prog.underlying
  rw [h]

/-- Struct values are not nil. -/
theorem Has.struct_ne {H : Heap} {Q : Nat → Prop} {t : Ty} {fs : List (String × Ty)} {v : Val} {T : Tree} (h : Has P H Q t v T) (ht : P.underlying t = .struct fs) : T ≠ .nil := by
  have := has_underlying.1 h
  rw [ht] at this
  cases this
  simp

theorem Has.basic_any {H H' : Heap} {Q Q' : Nat → Prop} {t : Ty} {b : Bool} {v : Val} {T : Tree} (h : Has P H Q t v T) (ht : P.underlying t = .basic b) : Has P H' Q' t v T := by
  have := has_underlying.1 h
  rw [ht] at this
  refine has_underlying.2 ?_
  rw [ht]
  cases this
  exact .basic _

/-- `x.DeepCopyInto(&y)`. -/
theorem callInto_ok {t : Ty} {T : Tree} (hm : P.HasMethods t) (hi : ∀ n, P.unalias t = .named n → P.methods n = true → CopyOk P (into n) (.named n) T) :
    CopyOk P (fun H i o => P.callInto into t H i o) t T := by
  obtain ⟨n, hn, hme⟩ := hm
  intro H Q i o v x hv hri hro hio hQ
  obtain ⟨H', v', h1, h2, h3⟩ := hi n hn hme H Q i o v x (has_unalias.1 hv |> fun h => by rwa [hn] at h) hri hro hio hQ
  refine ⟨H', v', ?_, h2, has_unalias.2 (by rw [hn]; exact h3)⟩
  simp [Prog.callInto, hn, hme, h1]

/-! ## Maps -/

theorem entry_call (hW : W.Copies P) {o : Loc} {u : Ty} {T : Tree} (hc : P.CopyIs u (P.unalias u).isPtr) (ha : P.hasAny u = true) (hs : SubOk P into T) :
    EntryOk P (fun H k x => do
      let (H, v) ← P.callCopy W into u H x
      putEntry H o k v) o u T := by
  obtain ⟨n, h1, h2, h3⟩ := hc
  have han := hasAny_owner h1 ha
  refine EntryOk.mk' fun H Q x v hv hx _ => ?_
  unfold Prog.owner at h1
  split at h1
  · rename_i m hm
    cases h1
    rw [hm] at h3
    obtain ⟨H', v', k1, k2, k3⟩ := callCopy_value (into := into) hW hm h2 h3 (T := T) (fun _ => .inr (hs n T h2 (.inl han) fun _ => han)) hv hx
    exact ⟨H', v', fun k => by simp only [k1, ok_bind], k2, k3⟩
  · rename_i e he
    split at h1
    · rename_i m hm
      cases h1
      rw [he] at h3
      obtain ⟨H', v', k1, k2, k3⟩ := callCopy_ptr (into := into) hW he hm h2 h3 (T := T) (fun T' _ => .inr (hs n T' h2 (.inl han) fun _ => han)) hv hx
      exact ⟨H', v', fun k => by simp only [k1, ok_bind], k2, k3⟩
    · cases h1
  · cases h1

theorem entry_callDeref (hW : W.Copies P) {o : Loc} {u : Ty} {T : Tree} (hp : (P.unalias u).isPtr = false) (hc : P.CopyIs u true)
    (hs : ∀ n, P.unalias u = .named n → P.methods n = true → CopyOk P (into n) (.named n) T) :
    EntryOk P (fun H k x => do
      let (H, v) ← P.callCopy W into u H x
      match v with
      | .ptr l => putEntry H o k (← load H l)
      | _ => .error .panic) o u T := by
  obtain ⟨n, h1, h2, h3⟩ := hc
  refine EntryOk.mk' fun H Q x v hv hx _ => ?_
  unfold Prog.owner at h1
  split at h1
  · rename_i m hm
    cases h1
    obtain ⟨H', l, v', k1, k2, k3, k4, k5⟩ := callCopy_addr (into := into) hW hm h2 h3 (T := T) (.inr (hs n hm h2)) hv hx
    exact ⟨H', v', fun k => by simp only [k1, ok_bind, load_ok k4], k2, k5⟩
  · rename_i e he
    rw [he] at hp
    cases hp
  · cases h1

theorem entry_keep {o : Loc} {u : Ty} {T : Tree} (hf : P.fine u = true) : EntryOk P (fun H k x => do putEntry H o k (← load H x)) o u T :=
  EntryOk.mk' fun H _ _ v hv hx _ => ⟨H, v, fun k => by simp only [load_ok hx, ok_bind], .refl H, Has.fine hv hf⟩

theorem underlying_idem (hP : P.Ok) (u : Ty) : P.underlying (P.underlying u) = P.underlying u := by
  by_cases h : ∃ n, P.unalias u = .named n
  · obtain ⟨n, h⟩ := h
    rw [underlying_named h]
    exact hP.1 n
  · have h1 : P.underlying u = P.unalias u := by
      unfold Prog.underlying
      split
      · rename_i n hn
        exact absurd ⟨n, hn⟩ h
      · rfl
    have h2 : P.unalias (P.unalias u) = P.unalias u := by
      cases u with
      | alias a => exact hP.2 a
      | _ => rfl
    rw [h1]
    show (match P.unalias (P.unalias u) with | .named n => P.under n | t => t) = P.unalias u
    rw [h2]
    split
    · rename_i n hn
      exact absurd ⟨n, hn⟩ h
    · rfl

theorem entry_block {o : Loc} {u : Ty} {T : Tree} {b : List Stmt} (hr : (P.underlying u).byRef = true) (hP : P.Ok) (hb : T ≠ .nil → CopyOk P (P.execs W into b) u T) :
    EntryOk P (fun H k x => do
      let (H, outVal) := alloc H (P.zero (P.underlying u))
      match ← load H x with
      | .nil => do
        let H ← putEntry H o k .nil
        putEntry H o k (← load H outVal)
      | v => do
        let (H, inVal) := alloc H v
        let H ← P.execs W into b H inVal outVal
        putEntry H o k (← load H outVal)) o u T := by
  intro H Q B x k v done hv hx ho hB hk hxB hoB hQ
  have hidem := underlying_idem hP u
  have hz : P.zero (P.underlying u) = .nil := by
    unfold Prog.zero
    rw [hidem, if_pos hr]
  have hBl : B < H.length := read_lt hB
  have he := extends_alloc H (P.zero (P.underlying u))
  by_cases hn : T = .nil
  · have hvn := hv.nil_iff.2 hn
    subst hvn
    obtain ⟨H1, k1, k2, k3⟩ := putEntry_ok (he.read ho) (he.read hB) k .nil
    rw [filter_keys hk] at k2
    have hol : H1.read (alloc H (P.zero (P.underlying u))).2 = some .nil := by
      have := k2.keeps (l := (alloc H (P.zero (P.underlying u))).2) (by simp [alloc]; omega) (read_alloc H _)
      rw [this, hz]
    obtain ⟨H2, m1, m2, m3⟩ := putEntry_ok (k2.keeps (by exact hoB) (he.read ho)) k2.read k .nil
    refine ⟨H2, .nil, ?_, ?_, ?_⟩
    · simp only [load_ok (he.read hx), ok_bind, k1, load_ok hol]
      exact m1
    · refine Wrote.after he ?_ hBl
      have := k2.trans m2
      rw [List.filter_append, filter_keys hk] at this
      simpa using this
    · rw [hn]
      exact hv.nil_any _ _ hn
  · have hvn : v ≠ .nil := fun h => hn (hv.nil_iff.1 h)
    have he2 := extends_alloc (alloc H (P.zero (P.underlying u))).1 v
    have he3 := he.trans he2
    obtain ⟨H1, v', k1, k2, k3⟩ := hb hn (alloc (alloc H (P.zero (P.underlying u))).1 v).1 (fun a => Q a ∧ a < H.length) (alloc (alloc H (P.zero (P.underlying u))).1 v).2 (alloc H (P.zero (P.underlying u))).2 v _
      (hv.extends he3) (read_alloc _ _) (he2.read (read_alloc _ _)) (by simp [alloc]) (fun a ha => by simp [alloc]; omega)
    have hx1 : Extends H H1 := he3.wrote k2 (by simp [alloc])
    obtain ⟨H2, m1, m2, m3⟩ := putEntry_ok (hx1.read ho) (hx1.read hB) k v'
    rw [filter_keys hk] at m2
    refine ⟨H2, v', ?_, Wrote.after hx1 m2 hBl, ?_⟩
    · simp only [load_ok (he.read hx), ok_bind]
      simp only [k1, ok_bind, load_ok k2.read, m1]
    · have := he3.length_le
      exact k3.move fun a ha hq => ⟨⟨Nat.lt_of_lt_of_le (Nat.lt_of_lt_of_le hBl this) hq.1, by rw [m3]; exact ha⟩, m2.2.1 a ha (by
        have := hq.1
        show a ≠ B
        omega)⟩

end

end Verif.DeepCopy

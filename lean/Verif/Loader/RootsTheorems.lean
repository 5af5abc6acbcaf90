import Verif.Loader.Roots
/-!
# C48: root packages in the import graph
-/
namespace Verif.Loader

/-! ## Specification -/

/-- Package `q` can be reached from `p` by imports. -/
inductive Imports (keys : Keys) (t : Targets) : Nat → Nat → Prop
  | refl {p} : Imports keys t p p
  | step {p q k} : Imports keys t p q → k ∈ keys q → Imports keys t p (t q k)

/-- The IDs of the roots are different (`uniquePkgIDs`, loader.go:420-425). -/
def UniqueIds (roots : List Root) : Prop := ∀ r ∈ roots, ∀ r' ∈ roots, r.id = r'.id → r = r'

/-- An import path that is not a root stands for the same package wherever it is imported. -/
def Once (keys : Keys) (roots : List Root) (t : Targets) : Prop :=
  ∀ p q k, k ∈ keys p → k ∈ keys q → (∀ r ∈ roots, r.id ≠ k) → t p k = t q k

section

variable {keys : Keys} {roots : List Root}

theorem canon_not {k : String} (h : ∀ r ∈ roots, r.id ≠ k) (v : Nat) : canon roots k v = v := by
  unfold canon
  induction roots generalizing v with
  | nil => rfl
  | cons r rs ih =>
    rw [List.foldl_cons, if_neg (fun e => h r (List.mem_cons_self ..) e.symm)]
    exact ih (fun r hr => h r (List.mem_cons_of_mem _ hr)) v

theorem canon_mem {k : String} {r : Root} (hu : UniqueIds roots) (hr : r ∈ roots) (h : r.id = k) (v : Nat) : canon roots k v = r.pkg := by
  subst h
  have key : ∀ (l : List Root) (v : Nat), (∀ r' ∈ l, r'.id = r.id → r' = r) → (v = r.pkg ∨ r ∈ l) →
      l.foldl (fun v r' => if r.id = r'.id then r'.pkg else v) v = r.pkg := by
    intro l
    induction l with
    | nil =>
      intro v _ h
      obtain h | h := h
      · exact h
      · cases h
    | cons r' l ih =>
      intro v hl h
      rw [List.foldl_cons]
      refine ih _ (fun r' hr' => hl r' (List.mem_cons_of_mem _ hr')) ?_
      by_cases e : r.id = r'.id
      · rw [if_pos e, hl r' (List.mem_cons_self ..) e.symm]
        exact .inl rfl
      · rw [if_neg e]
        obtain h | h := h
        · exact .inl h
        · obtain rfl | h := List.mem_cons.1 h
          · exact absurd rfl e
          · exact .inr h
  exact key roots v (fun r' hr' e => hu r' hr' r hr e) (.inr hr)

/-- What a step does to the imports. -/
def Refines (roots : List Root) (t t' : Targets) : Prop :=
  ∀ p k, t' p k = t p k ∨ t' p k = canon roots k (t p k)

theorem canon_idem (hu : UniqueIds roots) (k : String) (v : Nat) : canon roots k (canon roots k v) = canon roots k v := by
  by_cases h : ∃ r ∈ roots, r.id = k
  · obtain ⟨r, hr, h⟩ := h
    rw [canon_mem hu hr h, canon_mem hu hr h]
  · have h' : ∀ r ∈ roots, r.id ≠ k := fun r hr e => h ⟨r, hr, e⟩
    rw [canon_not h', canon_not h']

theorem Refines.trans (hu : UniqueIds roots) {a b c : Targets} (h : Refines roots a b) (h' : Refines roots b c) : Refines roots a c := by
  intro p k
  obtain e | e := h' p k
  · rw [e]; exact h p k
  · rw [e]
    obtain e' | e' := h p k <;> rw [e']
    · exact .inr rfl
    · rw [canon_idem hu]; exact .inr rfl

theorem refines_put (t : Targets) (p : Nat) (k : String) : Refines roots t (t.put p k (canon roots k (t p k))) := by
  intro q k'
  unfold Targets.put
  split
  · rename_i h; rw [h.1, h.2]; exact .inr rfl
  · exact .inl rfl

/-- The imports that are settled stay. -/
def Settled (roots : List Root) (t : Targets) (p : Nat) (k : String) : Prop := t p k = canon roots k (t p k)

theorem Refines.settled {t t' : Targets} (h : Refines roots t t') {p k} (hs : Settled roots t p k) : t' p k = t p k := by
  obtain e | e := h p k
  · exact e
  · rw [e]; exact hs.symm

theorem Refines.settled' {t t' : Targets} (h : Refines roots t t') {p k} (hs : Settled roots t p k) : Settled roots t' p k := by
  unfold Settled; rw [h.settled hs]; exact hs

/-- The invariant of a call for a root `r`: `done` are the packages that calls were made for. -/
structure VInv (keys : Keys) (roots : List Root) (t0 : Targets) (r : Nat) (v : Visit) (done : List Nat) : Prop where
  refines : Refines roots t0 v.to
  root : r ∈ done
  stack : ∀ f ∈ v.stack, f.1 ∈ done ∧ ∀ k ∈ f.2, k ∈ keys f.1
  /-- an import of a package is left, or it is settled and seen -/
  imports : ∀ p ∈ done, ∀ k ∈ keys p, (∃ f ∈ v.stack, f.1 = p ∧ k ∈ f.2) ∨ (Settled roots v.to p k ∧ k ∈ v.seen)
  /-- for what is seen, there was a call -/
  seen : ∀ k ∈ v.seen, ∃ p ∈ done, k ∈ keys p ∧ ∃ t, Refines roots t0 t ∧ Refines roots t v.to ∧ t p k ∈ done
  done : ∀ q ∈ done, q = r ∨ ∃ p ∈ done, ∃ k ∈ keys p, ∃ t, Refines roots t0 t ∧ Refines roots t v.to ∧ q = t p k

theorem put_settled (hu : UniqueIds roots) (t : Targets) (p : Nat) (k : String) : Settled roots (t.put p k (canon roots k (t p k))) p k := by
  unfold Settled Targets.put
  rw [if_pos ⟨rfl, rfl⟩, canon_idem hu]

theorem VInv.step (hu : UniqueIds roots) {t0 : Targets} {r : Nat} {v v' : Visit} {done : List Nat} (h : VInv keys roots t0 r v done) (hs : Visit.Step keys roots v v') :
    ∃ done', VInv keys roots t0 r v' done' := by
  cases hs with
  | @ret t s p rest =>
    refine ⟨done, h.refines, h.root, fun f hf => h.stack f (List.mem_cons_of_mem _ hf), ?_, h.seen, h.done⟩
    intro q hq k hk
    obtain ⟨f, hf, e1, e2⟩ | h' := h.imports q hq k hk
    · obtain rfl | hf := List.mem_cons.1 hf
      · cases e2
      · exact .inl ⟨f, hf, e1, e2⟩
    · exact .inr h'
  | @old t s p k ks rest hk =>
    have hr : Refines roots t (t.put p k (canon roots k (t p k))) := refines_put t p k
    refine ⟨done, h.refines.trans hu hr, h.root, ?_, ?_, ?_, ?_⟩
    · intro f hf
      obtain rfl | hf := List.mem_cons.1 hf
      · have := h.stack _ (List.mem_cons_self ..)
        exact ⟨this.1, fun k hk => this.2 k (List.mem_cons_of_mem _ hk)⟩
      · exact h.stack f (List.mem_cons_of_mem _ hf)
    · intro q hq k' hk'
      obtain ⟨f, hf, e1, e2⟩ | ⟨h1, h2⟩ := h.imports q hq k' hk'
      · obtain rfl | hf := List.mem_cons.1 hf
        · obtain rfl | e2 := List.mem_cons.1 e2
          · refine .inr ⟨?_, hk⟩
            rw [← e1]
            exact put_settled hu t p _
          · exact .inl ⟨_, List.mem_cons_self .., e1, e2⟩
        · exact .inl ⟨f, List.mem_cons_of_mem _ hf, e1, e2⟩
      · exact .inr ⟨hr.settled' h1, h2⟩
    · intro k' hk'
      obtain ⟨q, h1, h2, t', h3, h4, h5⟩ := h.seen k' hk'
      exact ⟨q, h1, h2, t', h3, h4.trans hu hr, h5⟩
    · intro q hq
      obtain h' | ⟨q', h1, k', h2, t', h3, h4, h5⟩ := h.done q hq
      · exact .inl h'
      · exact .inr ⟨q', h1, k', h2, t', h3, h4.trans hu hr, h5⟩
  | @new t s p k ks rest order hk hp =>
    have hr : Refines roots t (t.put p k (canon roots k (t p k))) := refines_put t p k
    have hst := h.stack _ (List.mem_cons_self ..)
    refine ⟨t p k :: done, h.refines.trans hu hr, List.mem_cons_of_mem _ h.root, ?_, ?_, ?_, ?_⟩
    · intro f hf
      obtain rfl | hf := List.mem_cons.1 hf
      · exact ⟨List.mem_cons_self .., fun k hk => hp.mem_iff.1 hk⟩
      · obtain rfl | hf := List.mem_cons.1 hf
        · exact ⟨List.mem_cons_of_mem _ hst.1, fun k hk => hst.2 k (List.mem_cons_of_mem _ hk)⟩
        · have := h.stack f (List.mem_cons_of_mem _ hf)
          exact ⟨List.mem_cons_of_mem _ this.1, this.2⟩
    · intro q hq k' hk'
      obtain rfl | hq := List.mem_cons.1 hq
      · exact .inl ⟨_, List.mem_cons_self .., rfl, hp.mem_iff.2 hk'⟩
      · obtain ⟨f, hf, e1, e2⟩ | ⟨h1, h2⟩ := h.imports q hq k' hk'
        · obtain rfl | hf := List.mem_cons.1 hf
          · obtain rfl | e2 := List.mem_cons.1 e2
            · refine .inr ⟨?_, List.mem_cons_self ..⟩
              rw [← e1]
              exact put_settled hu t p _
            · exact .inl ⟨_, List.mem_cons_of_mem _ (List.mem_cons_self ..), e1, e2⟩
          · exact .inl ⟨f, List.mem_cons_of_mem _ (List.mem_cons_of_mem _ hf), e1, e2⟩
        · exact .inr ⟨hr.settled' h1, List.mem_cons_of_mem _ h2⟩
    · intro k' hk'
      obtain rfl | hk' := List.mem_cons.1 hk'
      · exact ⟨p, List.mem_cons_of_mem _ hst.1, hst.2 _ (List.mem_cons_self ..), t, h.refines, hr, List.mem_cons_self ..⟩
      · obtain ⟨q, h1, h2, t', h3, h4, h5⟩ := h.seen k' hk'
        exact ⟨q, List.mem_cons_of_mem _ h1, h2, t', h3, h4.trans hu hr, List.mem_cons_of_mem _ h5⟩
    · intro q hq
      obtain rfl | hq := List.mem_cons.1 hq
      · exact .inr ⟨p, List.mem_cons_of_mem _ hst.1, k, hst.2 _ (List.mem_cons_self ..), t, h.refines, hr, rfl⟩
      · obtain h' | ⟨q', h1, k', h2, t', h3, h4, h5⟩ := h.done q hq
        · exact .inl h'
        · exact .inr ⟨q', List.mem_cons_of_mem _ h1, k', h2, t', h3, h4.trans hu hr, h5⟩

theorem VInv.steps (hu : UniqueIds roots) {t0 : Targets} {r : Nat} {v v' : Visit} (hs : Visit.Steps keys roots v v') : ∀ {done : List Nat}, VInv keys roots t0 r v done →
    ∃ done', VInv keys roots t0 r v' done' := by
  induction hs with
  | refl => exact fun h => ⟨_, h⟩
  | step h _ ih => exact fun hi => let ⟨_, h'⟩ := hi.step hu h; ih h'

theorem VisitRoot.spec (hu : UniqueIds roots) {r : Nat} {t t' : Targets} (h : VisitRoot keys roots r t t') : ∃ seen done, VInv keys roots t r ⟨t', seen, []⟩ done := by
  obtain ⟨order, seen, hp, hs⟩ := h
  have h0 : VInv keys roots t r ⟨t, [], [(r, order)]⟩ [r] := by
    refine ⟨fun _ _ => .inl rfl, List.mem_cons_self .., ?_, ?_, ?_, ?_⟩
    · intro f hf
      rw [List.mem_singleton.1 hf]
      exact ⟨List.mem_cons_self .., fun k hk => hp.mem_iff.1 hk⟩
    · intro p hpm k hk
      rw [List.mem_singleton.1 hpm] at hk ⊢
      exact .inl ⟨_, List.mem_cons_self .., rfl, hp.mem_iff.2 hk⟩
    · intro k hk; cases hk
    · intro q hq; exact .inl (List.mem_singleton.1 hq)
  obtain ⟨done, h⟩ := VInv.steps hu hs h0
  exact ⟨seen, done, h⟩

theorem VisitRoots.refines (hu : UniqueIds roots) {rs : List Root} {t t' : Targets} (h : VisitRoots keys roots rs t t') : Refines roots t t' := by
  induction h with
  | nil => exact fun _ _ => .inl rfl
  | cons h _ ih =>
    obtain ⟨_, _, hi⟩ := VisitRoot.spec hu h
    exact hi.refines.trans hu ih

/-- Every root has its call. -/
theorem VisitRoots.of_mem (hu : UniqueIds roots) {rs : List Root} {t t' : Targets} (h : VisitRoots keys roots rs t t') {r : Root} (hr : r ∈ rs) :
    ∃ a b, Refines roots t a ∧ VisitRoot keys roots r.pkg a b ∧ Refines roots b t' := by
  induction h with
  | nil => cases hr
  | cons h h' ih =>
    obtain rfl | hr := List.mem_cons.1 hr
    · exact ⟨_, _, fun _ _ => .inl rfl, h, h'.refines hu⟩
    · obtain ⟨a, b, h1, h2, h3⟩ := ih hr
      obtain ⟨_, _, hi⟩ := VisitRoot.spec hu h
      exact ⟨a, b, hi.refines.trans hu h1, h2, h3⟩

theorem settled_root (hu : UniqueIds roots) {t : Targets} {p k} (h : Settled roots t p k) {r : Root} (hr : r ∈ roots) (e : r.id = k) : t p k = r.pkg := by
  rw [h, canon_mem hu hr e]

/-- **C48** (frame).  An import that does not name a root is not changed; one that does is unchanged or refers to the root. -/
theorem C48_only (hu : UniqueIds roots) {t t' : Targets} (h : VisitRoots keys roots roots t t') (p : Nat) (k : String) :
    ((∀ r ∈ roots, r.id ≠ k) → t' p k = t p k) ∧ ∀ r ∈ roots, r.id = k → t' p k = t p k ∨ t' p k = r.pkg := by
  have := h.refines hu p k
  constructor
  · intro hn
    obtain e | e := this
    · exact e
    · rw [e, canon_not hn]
  · intro r hr e
    rw [canon_mem hu hr e] at this
    exact this

/-- **C48** (roots).  Every import of a root that names a root refers to it. -/
theorem C48_roots (hu : UniqueIds roots) {t t' : Targets} (h : VisitRoots keys roots roots t t') {r r' : Root} (hr : r ∈ roots) (hr' : r' ∈ roots) (hk : r'.id ∈ keys r.pkg) :
    t' r.pkg r'.id = r'.pkg := by
  obtain ⟨a, b, _, hv, hb⟩ := h.of_mem hu hr
  obtain ⟨seen, done, hi⟩ := VisitRoot.spec hu hv
  obtain ⟨f, hf, _⟩ | ⟨hs, _⟩ := hi.imports _ hi.root _ hk
  · cases hf
  · exact settled_root hu (hb.settled' hs) hr' rfl

/-- **C48**.  Every import that can be reached from a root and names a root refers to the package of the root — if an import path that is not a root stands for the same package wherever it is imported.

Partial: without the condition it is false (`C48_violated`). -/
theorem C48_partial (hu : UniqueIds roots) {t t' : Targets} (ho : Once keys roots t) (h : VisitRoots keys roots roots t t') {r r' : Root} (hr : r ∈ roots) (hr' : r' ∈ roots)
    {p : Nat} (hp : Imports keys t' r.pkg p) (hk : r'.id ∈ keys p) : t' p r'.id = r'.pkg := by
  -- every package that can be reached was visited from some root
  have key : ∃ r0 ∈ roots, ∃ a b seen done, Refines roots t a ∧ Refines roots b t' ∧ VInv keys roots a r0.pkg ⟨b, seen, []⟩ done ∧ p ∈ done := by
    clear hk
    induction hp with
    | refl =>
      obtain ⟨a, b, ha, hv, hb⟩ := h.of_mem hu hr
      obtain ⟨seen, done, hi⟩ := VisitRoot.spec hu hv
      exact ⟨r, hr, a, b, seen, done, ha, hb, hi, hi.root⟩
    | @step q k hq hk ih =>
      obtain ⟨r0, hr0, a, b, seen, done, ha, hb, hi, hd⟩ := ih
      by_cases hn : ∃ r1 ∈ roots, r1.id = k
      · -- the import is a root, which has its own call
        obtain ⟨r1, hr1, e⟩ := hn
        have : t' q k = r1.pkg := by
          obtain ⟨f, hf, _⟩ | ⟨hs, _⟩ := hi.imports q hd k hk
          · cases hf
          · exact settled_root hu (hb.settled' hs) hr1 e
        rw [this]
        obtain ⟨a, b, ha, hv, hb⟩ := h.of_mem hu hr1
        obtain ⟨seen, done, hi⟩ := VisitRoot.spec hu hv
        exact ⟨r1, hr1, a, b, seen, done, ha, hb, hi, hi.root⟩
      · have hn : ∀ r1 ∈ roots, r1.id ≠ k := fun r1 h1 e => hn ⟨r1, h1, e⟩
        refine ⟨r0, hr0, a, b, seen, done, ha, hb, hi, ?_⟩
        obtain ⟨f, hf, _⟩ | ⟨_, hsn⟩ := hi.imports q hd k hk
        · cases hf
        · obtain ⟨q', h1, h2, t1, h3, _, h5⟩ := hi.seen k hsn
          have e1 : t1 q' k = t q' k := by
            obtain e | e := (ha.trans hu h3) q' k
            · exact e
            · rw [e, canon_not hn]
          have e2 : t' q k = t q k := by
            obtain e | e := (h.refines hu) q k
            · exact e
            · rw [e, canon_not hn]
          rw [e2, ho q q' k hk h2 hn, ← e1]
          exact h5
  obtain ⟨r0, hr0, a, b, seen, done, ha, hb, hi, hd⟩ := key
  obtain ⟨f, hf, _⟩ | ⟨hs, _⟩ := hi.imports p hd _ hk
  · cases hf
  · exact settled_root hu (hb.settled' hs) hr' rfl

/-! ## The walk ends -/

/-- The paths of `all` that are not seen. -/
def unseen (all seen : List String) : Nat := (all.filter fun k => k ∉ seen).length

theorem unseen_lt {all seen : List String} {k : String} (h : k ∈ all) (hk : k ∉ seen) : unseen all (k :: seen) < unseen all seen := by
  unfold unseen
  induction all with
  | nil => cases h
  | cons a l ih =>
    have hle : ∀ l : List String, (l.filter fun k' => k' ∉ k :: seen).length ≤ (l.filter fun k' => k' ∉ seen).length := by
      intro l
      induction l with
      | nil => exact Nat.le_refl _
      | cons a l ih =>
        simp only [List.filter_cons, List.mem_cons, not_or, decide_not, Bool.not_eq_true']
        by_cases h1 : a ∈ seen <;> by_cases h2 : a = k <;> simp_all <;> omega
    have := hle l
    by_cases e : a = k
    · subst e
      rw [List.filter_cons, List.filter_cons, if_neg (by simp), if_pos (by simpa using hk)]
      simp only [List.length_cons]
      omega
    · obtain h | h := List.mem_cons.1 h
      · exact absurd h.symm e
      · have := ih h
        rw [List.filter_cons, List.filter_cons]
        by_cases h1 : a ∈ seen
        · rw [if_neg (by simp [h1]), if_neg (by simp [h1])]; exact this
        · rw [if_pos (by simp [h1, e]), if_pos (by simp [h1])]
          simp only [List.length_cons]
          omega

/-- What is left on the stack. -/
def stackSize (s : List (Nat × List String)) : Nat := (s.map fun f => f.2.length + 1).sum

/-- All paths left are of `all`. -/
def Within (all : List String) (v : Visit) : Prop := ∀ f ∈ v.stack, ∀ k ∈ f.2, k ∈ all

theorem Within.step {all : List String} (ha : ∀ p, ∀ k ∈ keys p, k ∈ all) {v v' : Visit} (h : Within all v) (hs : Visit.Step keys roots v v') : Within all v' := by
  cases hs with
  | ret => exact fun f hf => h f (List.mem_cons_of_mem _ hf)
  | old _ =>
    intro f hf
    obtain rfl | hf := List.mem_cons.1 hf
    · exact fun k hk => h _ (List.mem_cons_self ..) k (List.mem_cons_of_mem _ hk)
    · exact h f (List.mem_cons_of_mem _ hf)
  | new _ hp =>
    intro f hf
    obtain rfl | hf := List.mem_cons.1 hf
    · exact fun k hk => ha _ k (hp.mem_iff.1 hk)
    · obtain rfl | hf := List.mem_cons.1 hf
      · exact fun k hk => h _ (List.mem_cons_self ..) k (List.mem_cons_of_mem _ hk)
      · exact h f (List.mem_cons_of_mem _ hf)

/-- **C48** (the walk ends).  If there are finitely many import paths, there is no infinite walk, cyclic imports or not; and a walk that is not at its end can go on. -/
theorem C48_ends {all : List String} (ha : ∀ p, ∀ k ∈ keys p, k ∈ all) (v : Visit) (h : Within all v) :
    Acc (fun b a => Visit.Step keys roots a b) v ∧ (v.stack = [] ∨ ∃ v', Visit.Step keys roots v v') := by
  constructor
  · have key : ∀ n m (v : Visit), Within all v → unseen all v.seen ≤ n → stackSize v.stack ≤ m → Acc (fun b a => Visit.Step keys roots a b) v := by
      intro n
      induction n with
      | zero =>
        intro m
        induction m with
        | zero =>
          intro v _ _ hm
          refine ⟨_, fun v' hs => ?_⟩
          cases hs <;> simp [stackSize] at hm
        | succ m ihm =>
          intro v h hn hm
          refine ⟨_, fun v' hs => ?_⟩
          have hw := h.step ha hs
          cases hs with
          | ret => exact ihm _ hw hn (by simp [stackSize] at hm ⊢; omega)
          | old _ => exact ihm _ hw hn (by simp [stackSize] at hm ⊢; omega)
          | new hk _ =>
            have := unseen_lt (h _ (List.mem_cons_self ..) _ (List.mem_cons_self ..)) hk
            exact absurd hn (by simp only; omega)
      | succ n ihn =>
        intro m
        induction m with
        | zero =>
          intro v _ _ hm
          refine ⟨_, fun v' hs => ?_⟩
          cases hs <;> simp [stackSize] at hm
        | succ m ihm =>
          intro v h hn hm
          refine ⟨_, fun v' hs => ?_⟩
          have hw := h.step ha hs
          cases hs with
          | ret => exact ihm _ hw hn (by simp [stackSize] at hm ⊢; omega)
          | old _ => exact ihm _ hw hn (by simp [stackSize] at hm ⊢; omega)
          | new hk _ =>
            have := unseen_lt (h _ (List.mem_cons_self ..) _ (List.mem_cons_self ..)) hk
            exact ihn _ _ hw (by simp only at hn ⊢; omega) (Nat.le_refl _)
    exact key _ _ v h (Nat.le_refl _) (Nat.le_refl _)
  · match v with
    | ⟨t, s, []⟩ => exact .inl rfl
    | ⟨t, s, (p, []) :: rest⟩ => exact .inr ⟨_, .ret⟩
    | ⟨t, s, (p, k :: ks) :: rest⟩ =>
      by_cases hk : k ∈ s
      · exact .inr ⟨_, .old hk⟩
      · exact .inr ⟨_, .new hk (.refl _)⟩

/-- Every walk can be brought to its end, so `VisitRoots` can be met. -/
theorem visitRoots_exists {all : List String} (ha : ∀ p, ∀ k ∈ keys p, k ∈ all) : ∀ (rs : List Root) (t : Targets), ∃ t', VisitRoots keys roots rs t t' := by
  have one : ∀ v : Visit, Acc (fun b a => Visit.Step keys roots a b) v → Within all v → ∃ t s, Visit.Steps keys roots v ⟨t, s, []⟩ := by
    intro v hacc
    induction hacc with
    | intro v _ ih =>
      intro hw
      obtain h | ⟨v', hs⟩ := (C48_ends (roots := roots) ha v hw).2
      · refine ⟨v.to, v.seen, ?_⟩
        rw [← h]
        exact .refl
      · obtain ⟨t, s, h⟩ := ih v' hs (hw.step ha hs)
        exact ⟨t, s, .step hs h⟩
  intro rs
  induction rs with
  | nil => exact fun t => ⟨t, .nil⟩
  | cons r rs ih =>
    intro t
    have hw : Within all ⟨t, [], [(r.pkg, keys r.pkg)]⟩ := by
      intro f hf
      rw [List.mem_singleton.1 hf]
      exact ha r.pkg
    obtain ⟨t1, s, h⟩ := one _ (C48_ends (roots := roots) ha _ hw).1 hw
    obtain ⟨t2, h2⟩ := ih t1
    exact ⟨t2, .cons ⟨_, s, .refl _, h⟩ h2⟩

/-! ## The property is violated -/

/-- A walk that takes the import paths in the order of the lists. -/
def Visit.next (keys : Keys) (roots : List Root) (v : Visit) : Visit :=
  match v with
  | ⟨t, s, []⟩ => ⟨t, s, []⟩
  | ⟨t, s, (_, []) :: rest⟩ => ⟨t, s, rest⟩
  | ⟨t, s, (p, k :: ks) :: rest⟩ =>
    if k ∈ s then ⟨t.put p k (canon roots k (t p k)), s, (p, ks) :: rest⟩
    else ⟨t.put p k (canon roots k (t p k)), k :: s, (t p k, keys (t p k)) :: (p, ks) :: rest⟩

def Visit.nexts (keys : Keys) (roots : List Root) : Nat → Visit → Visit
  | 0, v => v
  | n + 1, v => Visit.nexts keys roots n (v.next keys roots)

theorem Visit.next_steps (v : Visit) : Visit.next keys roots v = v ∨ Visit.Step keys roots v (v.next keys roots) := by
  match v with
  | ⟨t, s, []⟩ => exact .inl rfl
  | ⟨t, s, (p, []) :: rest⟩ => exact .inr .ret
  | ⟨t, s, (p, k :: ks) :: rest⟩ =>
    by_cases hk : k ∈ s
    · rw [Visit.next, if_pos hk]; exact .inr (.old hk)
    · rw [Visit.next, if_neg hk]; exact .inr (.new hk (.refl _))

theorem Visit.nexts_steps (n : Nat) (v : Visit) : Visit.Steps keys roots v (v.nexts keys roots n) := by
  induction n generalizing v with
  | zero => exact .refl
  | succ n ih =>
    obtain h | h := Visit.next_steps (keys := keys) (roots := roots) v
    · rw [Visit.nexts, h]; exact ih v
    · exact .step h (ih _)

/-- The walks for some roots, `n` steps each. -/
def visitAll (keys : Keys) (roots : List Root) (n : Nat) : List Root → Targets → Targets
  | [], t => t
  | r :: rs, t => visitAll keys roots n rs (Visit.nexts keys roots n ⟨t, [], [(r.pkg, keys r.pkg)]⟩).to

/-- All of them are at their end. -/
def endAll (keys : Keys) (roots : List Root) (n : Nat) : List Root → Targets → Bool
  | [], _ => true
  | r :: rs, t =>
    let v := Visit.nexts keys roots n ⟨t, [], [(r.pkg, keys r.pkg)]⟩
    v.stack.isEmpty && endAll keys roots n rs v.to

theorem visitAll_spec (n : Nat) : ∀ (rs : List Root) (t : Targets), endAll keys roots n rs t = true → VisitRoots keys roots rs t (visitAll keys roots n rs t) := by
  intro rs
  induction rs with
  | nil => exact fun t _ => .nil
  | cons r rs ih =>
    intro t h
    rw [endAll, Bool.and_eq_true] at h
    refine .cons ⟨keys r.pkg, (Visit.nexts keys roots n ⟨t, [], [(r.pkg, keys r.pkg)]⟩).seen, .refl _, ?_⟩ (ih _ h.2)
    · have := Visit.nexts_steps (keys := keys) (roots := roots) n ⟨t, [], [(r.pkg, keys r.pkg)]⟩
      have e := List.isEmpty_iff.1 h.1
      generalize Visit.nexts keys roots n ⟨t, [], [(r.pkg, keys r.pkg)]⟩ = v at this e ⊢
      obtain ⟨to, seen, stack⟩ := v
      cases e
      exact this

end

namespace Bad

/-- Two loads.  The first is for the roots `c` (0), `e` (1), `a` (2), `d` (3); the second is for the root `b` (10).  Packages 4, 5, 6 are `p`, `x`, `b` in the first; 12, 13, 15 are `a`, `d`, `x` in the second. -/
def table : List (Nat × List (String × Nat)) :=
  [(0, [("p", 4)]), (1, [("x", 5), ("p", 4)]), (2, [("x", 5)]), (3, []), (4, [("b", 6)]), (5, [("d", 3)]), (6, [("a", 2), ("x", 5)]),
   (10, [("a", 12), ("x", 15)]), (12, [("x", 15)]), (13, []), (15, [("d", 13)])]

def keys : Keys := fun p => ((table.lookup p).getD []).map (·.1)
def to : Targets := fun p k => (((table.lookup p).getD []).lookup k).getD 0
def roots : List Root := [⟨"c", 0⟩, ⟨"e", 1⟩, ⟨"a", 2⟩, ⟨"d", 3⟩, ⟨"b", 10⟩]

end Bad

/-- **C48**, violated: root `b` imports `x`, whose import `d` is a root; it does not refer to the root.  (The walk from `e` sees `x` before it comes to `b`; the walk from `b` sees the `x` that `a` imports first.) -/
theorem C48_violated : ∃ (keys : Keys) (roots : List Root) (t t' : Targets), UniqueIds roots ∧ VisitRoots keys roots roots t t' ∧
    ∃ r ∈ roots, ∃ r' ∈ roots, ∃ p, Imports keys t' r.pkg p ∧ r'.id ∈ keys p ∧ t' p r'.id ≠ r'.pkg := by
  refine ⟨Bad.keys, Bad.roots, Bad.to, visitAll Bad.keys Bad.roots 30 Bad.roots Bad.to, ?_, visitAll_spec 30 _ _ (by decide +kernel), ⟨"b", 10⟩, by simp [Bad.roots], ⟨"d", 3⟩, by simp [Bad.roots], 15, ?_, by decide +kernel, by decide +kernel⟩
  · intro r hr r' hr' e
    simp only [Bad.roots, List.mem_cons, List.not_mem_nil, or_false] at hr hr'
    obtain rfl | rfl | rfl | rfl | rfl := hr <;> obtain rfl | rfl | rfl | rfl | rfl := hr' <;> first | rfl | exact absurd e (by decide)
  · have h : Imports Bad.keys (visitAll Bad.keys Bad.roots 30 Bad.roots Bad.to) 10 (visitAll Bad.keys Bad.roots 30 Bad.roots Bad.to 10 "x") := .step .refl (by decide +kernel)
    have e : visitAll Bad.keys Bad.roots 30 Bad.roots Bad.to 10 "x" = 15 := by decide +kernel
    exact e ▸ h

namespace Good

/-- Two loads: root `a` (0) imports `b` (1) and `x` (2), which imports `b`; root `b` (10) of the second load imports nothing. -/
def table : List (Nat × List (String × Nat)) := [(0, [("b", 1), ("x", 2)]), (1, []), (2, [("b", 1)]), (10, [])]
def keys : Keys := fun p => ((table.lookup p).getD []).map (·.1)
def to : Targets := fun p k => (((table.lookup p).getD []).lookup k).getD 0
def roots : List Root := [⟨"a", 0⟩, ⟨"b", 10⟩]

/-- The hypotheses of `C48_partial` can be met by two loads that share a package, and imports are replaced. -/
example : VisitRoots keys roots roots to (visitAll keys roots 10 roots to) := visitAll_spec 10 _ _ (by decide +kernel)
example : visitAll keys roots 10 roots to 2 "b" = 10 ∧ to 2 "b" = 1 := by decide +kernel
example : UniqueIds roots := by
  intro r hr r' hr' e
  simp only [roots, List.mem_cons, List.not_mem_nil, or_false] at hr hr'
  obtain rfl | rfl := hr <;> obtain rfl | rfl := hr' <;> first | rfl | exact absurd e (by decide)
example : Once keys roots to := by
  intro p q k hp hq hn
  have hk : ∀ p, k ∈ keys p → p = 0 ∧ (k = "b" ∨ k = "x") ∨ p = 2 ∧ k = "b" := by
    intro p hp
    unfold keys table at hp
    simp only [List.lookup] at hp
    by_cases h0 : p = 0
    · subst h0; simp at hp; exact .inl ⟨rfl, hp⟩
    · by_cases h1 : p = 1
      · subst h1; simp at hp
      · by_cases h2 : p = 2
        · subst h2; simp at hp; exact .inr ⟨rfl, hp⟩
        · by_cases h3 : p = 10
          · subst h3; simp at hp
          · simp [beq_eq_false_iff_ne.2 h0, beq_eq_false_iff_ne.2 h1, beq_eq_false_iff_ne.2 h2, beq_eq_false_iff_ne.2 h3] at hp
  have hb : k ≠ "b" := fun e => hn ⟨"b", 10⟩ (by simp [roots]) e.symm
  obtain ⟨rfl, h | h⟩ | ⟨rfl, h⟩ := hk p hp
  · exact absurd h hb
  · obtain ⟨rfl, _⟩ | ⟨_, h'⟩ := hk q hq
    · rfl
    · exact absurd h' hb
  · exact absurd h hb

end Good

end Verif.Loader

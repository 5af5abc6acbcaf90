import Verif.Crd.NeedSpec
import Verif.Crd.NeedRefs

/-! # The invariant of the parser -/
namespace Verif.Crd
open Spec

/-! ## What a package declares -/

theorem get_foldl {α κ ν : Type} [DecidableEq κ] (key : α → κ) (val : α → ν) (id : κ) : ∀ (l : List α) (m : List (κ × ν)),
    GoMap.get (l.foldl (fun m e => GoMap.put m (key e) (val e)) m) id = (match (l.filter fun e => key e = id).getLast? with | some e => some (val e) | none => GoMap.get m id) := by
  intro l
  induction l with
  | nil => intro m; rfl
  | cons a l ih =>
    intro m
    rw [List.foldl_cons, ih, List.filter_cons]
    by_cases h : key a = id
    · simp only [h, decide_true, if_true]
      rw [List.getLast?_cons]
      cases hl : (l.filter fun e => key e = id).getLast? with
      | none => simp [GoMap.get_put]
      | some e => simp
    · simp only [h, decide_false, Bool.false_eq_true, if_false]
      cases (l.filter fun e => key e = id).getLast? with
      | none => simp only [GoMap.get_put]; rw [if_neg (fun e => h e.symm)]
      | some e => rfl

theorem last_iff {α : Type} (p : α → Bool) {l : List α} {a : α} : (l.filter p).getLast? = some a ↔ ∃ x y, l = x ++ a :: y ∧ p a = true ∧ ∀ e ∈ y, p e = false := by
  induction l with
  | nil => simp
  | cons b l ih =>
    rw [List.filter_cons]
    constructor
    · intro h
      split at h
      · rename_i hb
        rw [List.getLast?_cons] at h
        cases hl : (l.filter p).getLast? with
        | none =>
          rw [hl] at h
          simp at h
          subst h
          rw [List.getLast?_eq_none_iff, List.filter_eq_nil_iff] at hl
          exact ⟨[], l, rfl, hb, fun e he => by simpa using hl e he⟩
        | some c =>
          rw [hl] at h
          simp at h
          subst h
          obtain ⟨x, y, e, h1, h2⟩ := ih.1 hl
          exact ⟨b :: x, y, by rw [e]; rfl, h1, h2⟩
      · obtain ⟨x, y, e, h1, h2⟩ := ih.1 h
        exact ⟨b :: x, y, by rw [e]; rfl, h1, h2⟩
    · rintro ⟨x, y, e, h1, h2⟩
      cases x with
      | nil =>
        cases e
        rw [if_pos h1, List.filter_eq_nil_iff.2 (fun e he => by simp [h2 e he])]
        rfl
      | cons c x =>
        cases e
        have := ih.2 ⟨x, y, rfl, h1, h2⟩
        split
        · rw [List.getLast?_cons, this]; rfl
        · exact this

/-- `PackageOverrides[NonVendorPath(pkg.PkgPath)]`. -/
def Src.override (S : Src) (pkg : String) : Option Override := GoMap.get S.overrides (String.ofList (Loader.nonVendorPath (S.path pkg).toList))

/-- The fixed schema of a type. -/
def Src.fixedOf (S : Src) (id : TypeIdent) : Option Schema :=
  match S.override id.pkg with
  | none => none
  | some o => ((o.schemata.filter fun e => e.1 = id.name).getLast?).map (·.2)

/-- The types of the package are indexed. -/
def Src.indexed (S : Src) (pkg : String) : Bool := !(S.ctx pkg).markers.has "kubebuilder:skip" && (S.override pkg).all (·.add)

/-- The declaration of a type. -/
def Src.declOf (S : Src) (id : TypeIdent) : Option Decl :=
  if S.indexed id.pkg then ((S.decls id.pkg).filter fun d => d.name = id.name).getLast? else none

theorem fixed_iff {S : Src} {id : TypeIdent} {s : Schema} : S.fixedOf id = some s ↔ Fixed S id s := by
  unfold Src.fixedOf Fixed OverrideOf Src.override
  cases h : GoMap.get S.overrides (String.ofList (Loader.nonVendorPath (S.path id.pkg).toList)) with
  | none => simp
  | some o =>
    simp only [Option.map_eq_some_iff]
    constructor
    · rintro ⟨⟨k, s'⟩, h1, rfl⟩
      obtain ⟨a, b, e, h2, h3⟩ := (last_iff _).1 h1
      refine ⟨o, a, b, rfl, ?_, fun e he => by simpa using h3 e he⟩
      simp only [decide_eq_true_eq] at h2
      rw [e, h2]
    · rintro ⟨o', a, b, h1, h2, h3⟩
      cases h1
      exact ⟨(id.name, s), (last_iff _).2 ⟨a, b, h2, by simp, fun e he => by simpa using h3 e he⟩, rfl⟩

theorem declares_iff {S : Src} {id : TypeIdent} {d : Decl} : S.declOf id = some d ↔ Declares S id d := by
  unfold Src.declOf Declares Src.indexed OverrideOf
  rw [← has_iff]
  have ho : (S.override id.pkg).all (·.add) = true ↔ ∀ o, GoMap.get S.overrides (String.ofList (Loader.nonVendorPath (S.path id.pkg).toList)) = some o → o.add = true := by
    unfold Src.override
    cases GoMap.get S.overrides (String.ofList (Loader.nonVendorPath (S.path id.pkg).toList)) <;> simp
  rw [← ho]
  constructor
  · intro h
    split at h
    · rename_i hi
      simp only [Bool.and_eq_true, Bool.not_eq_true'] at hi
      obtain ⟨a, b, e, h1, h2⟩ := (last_iff _).1 h
      exact ⟨by simp [hi.1], hi.2, a, b, e, by simpa using h1, fun e he => by simpa using h2 e he⟩
    · cases h
  · rintro ⟨h1, h2, a, b, e, h3, h4⟩
    rw [if_pos (by simp [h1, h2])]
    exact (last_iff _).2 ⟨a, b, e, by simpa using h3, fun e he => by simpa using h4 e he⟩

/-! ## The invariant -/

variable {S : Src} {marshal : AnyVal → Option Raw} {σ : Nat → Sched}

/-- The schema of a type is the one its declaration stands for, and what it refers to has been asked for. -/
structure Own (S : Src) (marshal : AnyVal → Option Raw) (σ : Nat → Sched) (st : PState) (id : TypeIdent) (s : Schema) : Prop where
  made : id ∈ st.made
  gen : ∃ d t g, S.declOf id = some d ∧ infoToSchema marshal σ (S.ctx id.pkg) d { tick := t } = .ok (s, g) ∧ (st.errs = 0 → g.errs = 0) ∧
    ∀ r ∈ g.reqs, ∃ q, S.target id.pkg r.1 = some q ∧ (st.errs = 0 → (GoMap.get st.schemata ⟨q, r.2⟩).isSome)

/-- The invariant, where the schemas of the types of `W` are being generated. -/
structure PInv (S : Src) (marshal : AnyVal → Option Raw) (σ : Nat → Sched) (W : List TypeIdent) (st : PState) : Prop where
  outside : ∀ id, id.pkg ∉ st.packages → GoMap.get st.schemata id = none ∧ GoMap.get st.types id = none
  types : ∀ id, id.pkg ∈ st.packages → GoMap.get st.types id = S.declOf id
  fixed : ∀ id s, id.pkg ∈ st.packages → S.fixedOf id = some s → GoMap.get st.schemata id = some s
  wip : ∀ id ∈ W, (GoMap.get st.schemata id).isSome ∧ id ∈ st.made
  own : ∀ id s, GoMap.get st.schemata id = some s → id ∉ W → S.fixedOf id = some s ∨ Own S marshal σ st id s
  made : ∀ id ∈ st.made, (GoMap.get st.schemata id).isSome ∧ S.fixedOf id = none
  nodup : st.made.Nodup

/-- What requests leave alone. -/
structure PState.Le (st st' : PState) : Prop where
  schemata : ∀ id s, GoMap.get st.schemata id = some s → GoMap.get st'.schemata id = some s
  errs : st.errs ≤ st'.errs
  packages : ∀ p ∈ st.packages, p ∈ st'.packages
  made : st.made <+: st'.made

theorem PState.Le.refl {st : PState} : PState.Le st st := ⟨fun _ _ h => h, Nat.le_refl _, fun _ h => h, List.prefix_refl _⟩
theorem PState.Le.trans {a b c : PState} (h : PState.Le a b) (h' : PState.Le b c) : PState.Le a c :=
  ⟨fun i s e => h'.schemata i s (h.schemata i s e), Nat.le_trans h.errs h'.errs, fun p hp => h'.packages p (h.packages p hp), h.made.trans h'.made⟩

theorem PState.Le.some {st st' : PState} (h : PState.Le st st') {id : TypeIdent} (hs : (GoMap.get st.schemata id).isSome) : (GoMap.get st'.schemata id).isSome := by
  obtain ⟨s, e⟩ := Option.isSome_iff_exists.1 hs
  rw [h.schemata id s e]; rfl

theorem Own.mono {st st' : PState} {id : TypeIdent} {s : Schema} (h : Own S marshal σ st id s) (hs : ∀ id, (GoMap.get st.schemata id).isSome → (GoMap.get st'.schemata id).isSome)
    (he : st.errs ≤ st'.errs) (hm : ∀ i ∈ st.made, i ∈ st'.made) : Own S marshal σ st' id s := by
  obtain ⟨h1, d, t, g, h2, h3, h4, h5⟩ := h
  refine ⟨hm _ h1, d, t, g, h2, h3, fun e => h4 (by omega), fun r hr => ?_⟩
  obtain ⟨q, h6, h7⟩ := h5 r hr
  exact ⟨q, h6, fun e => hs _ (h7 (by omega))⟩

theorem inv_init : PInv S marshal σ [] {} := ⟨fun _ _ => ⟨rfl, rfl⟩, nofun, nofun, nofun, nofun, nofun, List.nodup_nil⟩

/-! ## Loading packages -/

theorem needPackage_schemata {pkg : String} {st : PState} (hp : pkg ∉ st.packages) (ho : ∀ id, id.pkg = pkg → GoMap.get st.schemata id = none) (id : TypeIdent) :
    GoMap.get (S.needPackage pkg st).schemata id = if id.pkg = pkg then S.fixedOf id else GoMap.get st.schemata id := by
  unfold Src.needPackage
  rw [if_neg hp]
  have key : ∀ (l : List (String × Schema)), GoMap.get (l.foldl (fun m e => GoMap.put m ⟨pkg, e.1⟩ e.2) st.schemata) id =
      if id.pkg = pkg then ((l.filter fun e => e.1 = id.name).getLast?).map (·.2) else GoMap.get st.schemata id := by
    intro l
    rw [get_foldl (fun e : String × Schema => (⟨pkg, e.1⟩ : TypeIdent)) (·.2)]
    have hf : (l.filter fun e => decide ((⟨pkg, e.1⟩ : TypeIdent) = id)) = if id.pkg = pkg then l.filter fun e => e.1 = id.name else [] := by
      obtain ⟨p, n⟩ := id
      by_cases h : p = pkg
      · subst h
        simp
      · simp only [TypeIdent.mk.injEq, h, if_false]
        rw [List.filter_eq_nil_iff]
        intro e _
        simp only [decide_eq_true_eq, not_and]
        exact fun e => absurd e.symm h
    rw [hf]
    by_cases h : id.pkg = pkg
    · rw [if_pos h, if_pos h]
      cases (l.filter fun e => e.1 = id.name).getLast? with
      | none => exact ho id h
      | some e => rfl
    · rw [if_neg h, if_neg h]; rfl
  have hadd : ∀ st', (S.addPackage pkg st').schemata = st'.schemata := by
    intro st'
    unfold Src.addPackage
    split <;> rfl
  have hov : S.override pkg = GoMap.get S.overrides (String.ofList (Loader.nonVendorPath (S.path pkg).toList)) := rfl
  rw [← hov]
  cases ho' : S.override pkg with
  | none =>
    simp only
    rw [hadd]
    by_cases h : id.pkg = pkg
    · rw [if_pos h, ho id h, Src.fixedOf, h, ho']
    · rw [if_neg h]
  | some o =>
    simp only
    have : (if o.add = true then S.addPackage pkg { st with schemata := o.schemata.foldl (fun m e => GoMap.put m ⟨pkg, e.1⟩ e.2) st.schemata } else
        { st with schemata := o.schemata.foldl (fun m e => GoMap.put m ⟨pkg, e.1⟩ e.2) st.schemata }).schemata = o.schemata.foldl (fun m e => GoMap.put m ⟨pkg, e.1⟩ e.2) st.schemata := by
      split
      · rw [hadd]
      · rfl
    rw [this, key]
    by_cases h : id.pkg = pkg
    · rw [if_pos h, if_pos h, Src.fixedOf, h, ho']
    · rw [if_neg h, if_neg h]

theorem addPackage_types {pkg : String} {st : PState} (hp : pkg ∉ st.packages) (ho : ∀ id, id.pkg = pkg → GoMap.get st.types id = none) (id : TypeIdent) :
    GoMap.get (S.addPackage pkg st).types id = if id.pkg = pkg then (if (S.ctx pkg).markers.has "kubebuilder:skip" then none else ((S.decls pkg).filter fun d => d.name = id.name).getLast?)
      else GoMap.get st.types id := by
  unfold Src.addPackage
  rw [if_neg hp]
  simp only
  by_cases hs : (S.ctx pkg).markers.has "kubebuilder:skip" = true
  · rw [if_pos hs, if_pos hs]
    split
    · exact ho id ‹_›
    · rfl
  · rw [if_neg hs, if_neg hs, get_foldl (fun d : Decl => (⟨pkg, d.name⟩ : TypeIdent)) (fun d => d)]
    have hf : ((S.decls pkg).filter fun e => decide ((⟨pkg, e.name⟩ : TypeIdent) = id)) = if id.pkg = pkg then (S.decls pkg).filter fun e => e.name = id.name else [] := by
      obtain ⟨p, n⟩ := id
      by_cases h : p = pkg
      · subst h; simp
      · simp only [TypeIdent.mk.injEq, h, if_false]
        rw [List.filter_eq_nil_iff]
        intro e _
        simp only [decide_eq_true_eq, not_and]
        exact fun e => absurd e.symm h
    rw [hf]
    by_cases h : id.pkg = pkg
    · rw [if_pos h, if_pos h]
      cases ((S.decls pkg).filter fun e => e.name = id.name).getLast? with
      | none => exact ho id h
      | some e => rfl
    · rw [if_neg h, if_neg h]; rfl

theorem addPackage_packages (pkg : String) (st : PState) (p : String) : p ∈ (S.addPackage pkg st).packages ↔ p = pkg ∨ p ∈ st.packages := by
  unfold Src.addPackage
  split
  · rename_i h
    constructor
    · exact .inr
    · rintro (rfl | h')
      · exact h
      · exact h'
  · simp

theorem needPackage_types {pkg : String} {st : PState} (hp : pkg ∉ st.packages) (ho : ∀ id, id.pkg = pkg → GoMap.get st.types id = none) (id : TypeIdent) :
    GoMap.get (S.needPackage pkg st).types id = if id.pkg = pkg then S.declOf id else GoMap.get st.types id := by
  unfold Src.needPackage
  rw [if_neg hp]
  have hov : S.override pkg = GoMap.get S.overrides (String.ofList (Loader.nonVendorPath (S.path pkg).toList)) := rfl
  rw [← hov]
  have hd : id.pkg = pkg → S.declOf id = if S.indexed pkg then ((S.decls pkg).filter fun d => d.name = id.name).getLast? else none := by
    rintro rfl; rfl
  cases ho' : S.override pkg with
  | none =>
    simp only
    rw [addPackage_types hp ho]
    by_cases h : id.pkg = pkg
    · rw [if_pos h, if_pos h, hd h, Src.indexed, ho']
      cases (S.ctx pkg).markers.has "kubebuilder:skip" <;> simp
    · rw [if_neg h, if_neg h]
  | some o =>
    simp only
    by_cases ha : o.add = true
    · rw [if_pos ha, addPackage_types (by exact hp) (by exact ho)]
      by_cases h : id.pkg = pkg
      · rw [if_pos h, if_pos h, hd h, Src.indexed, ho']
        cases (S.ctx pkg).markers.has "kubebuilder:skip" <;> simp [ha]
      · rw [if_neg h, if_neg h]
    · rw [if_neg ha]
      by_cases h : id.pkg = pkg
      · rw [if_pos h, hd h, Src.indexed, ho', ho id h]
        simp [ha]
      · rw [if_neg h]

theorem needPackage_rest (pkg : String) (st : PState) : (S.needPackage pkg st).errs = st.errs ∧ (S.needPackage pkg st).tick = st.tick ∧ (S.needPackage pkg st).made = st.made ∧
    ∀ p, p ∈ (S.needPackage pkg st).packages ↔ p = pkg ∨ p ∈ st.packages := by
  have ha : ∀ st', (S.addPackage pkg st').errs = st'.errs ∧ (S.addPackage pkg st').tick = st'.tick ∧ (S.addPackage pkg st').made = st'.made := by
    intro st'
    unfold Src.addPackage
    split <;> exact ⟨rfl, rfl, rfl⟩
  unfold Src.needPackage
  split
  · rename_i h
    refine ⟨rfl, rfl, rfl, fun p => ⟨.inr, ?_⟩⟩
    rintro (rfl | h')
    · exact h
    · exact h'
  · split
    · rename_i o _
      simp only
      by_cases hadd : o.add = true
      · rw [if_pos hadd]
        refine ⟨(ha _).1, (ha _).2.1, (ha _).2.2, fun p => ?_⟩
        rw [List.mem_cons, addPackage_packages]
        constructor
        · rintro (h | h | h)
          · exact .inl h
          · exact .inl h
          · exact .inr h
        · rintro (h | h)
          · exact .inl h
          · exact .inr (.inr h)
      · rw [if_neg hadd]
        exact ⟨rfl, rfl, rfl, fun p => by simp⟩
    · exact ⟨(ha _).1, (ha _).2.1, (ha _).2.2, fun p => addPackage_packages ..⟩

theorem needPackage_le {W : List TypeIdent} {st : PState} (h : PInv S marshal σ W st) (pkg : String) : PState.Le st (S.needPackage pkg st) := by
  obtain ⟨h1, -, h3, h4⟩ := needPackage_rest (S := S) pkg st
  refine ⟨?_, Nat.le_of_eq h1.symm, fun p hp => (h4 p).2 (.inr hp), by rw [h3]; exact List.prefix_refl _⟩
  intro id s hs
  by_cases hp : pkg ∈ st.packages
  · rw [Src.needPackage, if_pos hp]; exact hs
  · rw [needPackage_schemata hp (fun id hid => (h.outside id (hid ▸ hp)).1)]
    rw [if_neg]
    · exact hs
    · intro e
      rw [(h.outside id (e ▸ hp)).1] at hs
      cases hs

theorem needPackage_inv {W : List TypeIdent} {st : PState} (h : PInv S marshal σ W st) (pkg : String) : PInv S marshal σ W (S.needPackage pkg st) := by
  obtain ⟨h1, -, h3, h4⟩ := needPackage_rest (S := S) pkg st
  have hle := needPackage_le h pkg
  by_cases hp : pkg ∈ st.packages
  · rw [Src.needPackage, if_pos hp]; exact h
  have hsch := needPackage_schemata (S := S) hp (fun id hid => (h.outside id (hid ▸ hp)).1)
  have htyp := needPackage_types (S := S) hp (fun id hid => (h.outside id (hid ▸ hp)).2)
  refine ⟨?_, ?_, ?_, ?_, ?_, ?_, by rw [h3]; exact h.nodup⟩
  · intro id hid
    rw [h4] at hid
    rw [hsch, htyp, if_neg (fun e => hid (.inl e)), if_neg (fun e => hid (.inl e))]
    exact h.outside id (fun e => hid (.inr e))
  · intro id hid
    rw [htyp]
    split
    · rfl
    · rename_i hne
      exact h.types id (((h4 _).1 hid).resolve_left hne)
  · intro id s hid hs
    rw [hsch]
    split
    · exact hs
    · rename_i hne
      exact h.fixed id s (((h4 _).1 hid).resolve_left hne) hs
  · intro id hid
    exact ⟨hle.some (h.wip id hid).1, by rw [h3]; exact (h.wip id hid).2⟩
  · intro id s hs hid
    rw [hsch] at hs
    split at hs
    · exact .inl hs
    · exact (h.own id s hs hid).imp_right fun o => o.mono (fun _ => hle.some) hle.errs (fun i hi => by rw [h3]; exact hi)
  · intro id hid
    rw [h3] at hid
    exact ⟨hle.some (h.made id hid).1, (h.made id hid).2⟩

/-! ## Requests -/

/-- What is shown of a call. -/
def Fine (S : Src) (marshal : AnyVal → Option Raw) (σ : Nat → Sched) (need : TypeIdent → PState → Except Stop PState) : Prop :=
  ∀ W id st st', PInv S marshal σ W st → need id st = .ok st' →
    PInv S marshal σ W st' ∧ PState.Le st st' ∧ (st'.errs = 0 → (GoMap.get st'.schemata id).isSome)

theorem requests_fine {need : TypeIdent → PState → Except Stop PState} (hn : Fine S marshal σ need) {pkg : String} : ∀ (rs : List (String × String)) {W : List TypeIdent} {st st' : PState},
    PInv S marshal σ W st → S.requests need pkg rs st = .ok st' →
    PInv S marshal σ W st' ∧ PState.Le st st' ∧ ∀ r ∈ rs, ∃ q, S.target pkg r.1 = some q ∧ (st'.errs = 0 → (GoMap.get st'.schemata ⟨q, r.2⟩).isSome) := by
  intro rs
  induction rs with
  | nil => intro W st st' hi h; cases h; exact ⟨hi, .refl, nofun⟩
  | cons r rs ih =>
    intro W st st' hi h
    rw [Src.requests] at h
    split at h
    · cases h
    · rename_i st1 heq
      unfold Src.request at heq
      split at heq
      · cases heq
      · rename_i q hq
        obtain ⟨i1, l1, e1⟩ := hn W _ _ _ hi heq
        obtain ⟨i2, l2, e2⟩ := ih i1 h
        refine ⟨i2, l1.trans l2, ?_⟩
        intro x hx
        rcases List.mem_cons.1 hx with rfl | hx
        · exact ⟨q, hq, fun e => l2.some (e1 (by have := l2.errs; omega))⟩
        · exact e2 x hx

theorem start_inv {W : List TypeIdent} {st1 : PState} {id : TypeIdent} (hi1 : PInv S marshal σ W st1) (hnone : GoMap.get st1.schemata id = none) (hpk : id.pkg ∈ st1.packages)
    (hfix : S.fixedOf id = none) {e t : Nat} :
    PInv S marshal σ (id :: W) { st1 with schemata := GoMap.put st1.schemata id .empty, errs := st1.errs + e, tick := t, made := st1.made ++ [id] } := by
  have hmade : id ∉ st1.made := fun hm => by have := (hi1.made id hm).1; rw [hnone] at this; cases this
  have hsome : ∀ i, (GoMap.get st1.schemata i).isSome → (GoMap.get (GoMap.put st1.schemata id Schema.empty) i).isSome := by
    intro i hs
    rw [GoMap.get_put]
    split
    · rfl
    · exact hs
  refine ⟨?_, hi1.types, ?_, ?_, ?_, ?_, ?_⟩
  · intro i hp
    refine ⟨?_, (hi1.outside i hp).2⟩
    simp only
    rw [GoMap.get_put, if_neg]
    · exact (hi1.outside i hp).1
    · rintro rfl; exact hp hpk
  · intro i s0 hp hf
    simp only
    rw [GoMap.get_put, if_neg]
    · exact hi1.fixed i s0 hp hf
    · rintro rfl; rw [hfix] at hf; cases hf
  · intro i hiw
    simp only
    rcases List.mem_cons.1 hiw with rfl | hiw
    · exact ⟨by rw [GoMap.get_put, if_pos rfl]; rfl, List.mem_append_right _ (List.mem_singleton_self _)⟩
    · exact ⟨hsome i (hi1.wip i hiw).1, List.mem_append_left _ (hi1.wip i hiw).2⟩
  · intro i s0 hs0 hni
    simp only at hs0
    rw [GoMap.get_put, if_neg (fun e : i = id => hni (e ▸ List.mem_cons_self ..))] at hs0
    exact (hi1.own i s0 hs0 (fun e => hni (List.mem_cons_of_mem _ e))).imp_right fun o => o.mono hsome (Nat.le_add_right _ _) (fun _ x => List.mem_append_left _ x)
  · intro i him
    simp only at him ⊢
    rcases List.mem_append.1 him with him | him
    · exact ⟨hsome i (hi1.made i him).1, (hi1.made i him).2⟩
    · rw [List.mem_singleton.1 him]
      exact ⟨by rw [GoMap.get_put, if_pos rfl]; rfl, hfix⟩
  · simp only
    rw [List.nodup_append]
    refine ⟨hi1.nodup, by simp, ?_⟩
    rintro a ha b hb rfl
    rw [List.mem_singleton.1 hb] at ha
    exact hmade ha

theorem needStep_fine {need : TypeIdent → PState → Except Stop PState} (hn : Fine S marshal σ need) : Fine S marshal σ (S.needStep marshal σ need) := by
  intro W id st st' hi h
  have hi1 := needPackage_inv hi id.pkg
  have hl1 := needPackage_le hi id.pkg
  have hpk : id.pkg ∈ (S.needPackage id.pkg st).packages := ((needPackage_rest (S := S) id.pkg st).2.2.2 _).2 (.inl rfl)
  unfold Src.needStep at h
  simp only at h
  generalize S.needPackage id.pkg st = st1 at h hi1 hl1 hpk
  split at h
  · rename_i s heq
    cases h
    exact ⟨hi1, hl1, fun _ => by rw [heq]; rfl⟩
  · rename_i hnone
    split at h
    · cases h
      refine ⟨⟨hi1.outside, hi1.types, hi1.fixed, hi1.wip, ?_, hi1.made, hi1.nodup⟩, ⟨hl1.schemata, Nat.le_succ_of_le hl1.errs, hl1.packages, hl1.made⟩, ?_⟩
      · intro i s hs hw
        exact (hi1.own i s hs hw).imp_right fun o => o.mono (fun _ x => x) (Nat.le_succ _) (fun _ x => x)
      · intro e; cases e
    · rename_i d hd
      split at h
      · cases h
      · rename_i s g hg
        split at h
        · cases h
        · rename_i st3 hreq
          cases h
          have hdecl : S.declOf id = some d := by rw [← hi1.types id hpk]; exact hd
          have hfix : S.fixedOf id = none := by
            cases hf : S.fixedOf id with
            | none => rfl
            | some s0 => rw [hi1.fixed id s0 hpk hf] at hnone; cases hnone
          have hw : id ∉ W := fun hw => by have := (hi1.wip id hw).1; rw [hnone] at this; cases this
          have hi2 : PInv S marshal σ (id :: W) { st1 with schemata := GoMap.put st1.schemata id .empty, errs := st1.errs + g.errs, tick := g.tick, made := st1.made ++ [id] } :=
            start_inv hi1 hnone hpk hfix
          obtain ⟨hi3, hl3, hr3⟩ := requests_fine hn g.reqs hi2 hreq
          have hsome3 : ∀ i, (GoMap.get st3.schemata i).isSome → (GoMap.get (GoMap.put st3.schemata id s) i).isSome := by
            intro i hs
            rw [GoMap.get_put]
            split
            · rfl
            · exact hs
          have hm3 : id ∈ st3.made := hl3.made.subset (List.mem_append_right _ (List.mem_singleton_self _))
          refine ⟨⟨?_, hi3.types, ?_, ?_, ?_, ?_, hi3.nodup⟩, ⟨?_, ?_, ?_, ?_⟩, ?_⟩
          · intro i hp
            refine ⟨?_, (hi3.outside i hp).2⟩
            simp only
            rw [GoMap.get_put, if_neg]
            · exact (hi3.outside i hp).1
            · rintro rfl; exact hp (hl3.packages _ hpk)
          · intro i s0 hp hf
            simp only
            rw [GoMap.get_put, if_neg]
            · exact hi3.fixed i s0 hp hf
            · rintro rfl; rw [hfix] at hf; cases hf
          · intro i hiw
            exact ⟨hsome3 i (hi3.wip i (List.mem_cons_of_mem _ hiw)).1, (hi3.wip i (List.mem_cons_of_mem _ hiw)).2⟩
          · intro i s0 hs0 hni
            simp only at hs0
            rw [GoMap.get_put] at hs0
            split at hs0
            · rename_i e
              subst e
              cases hs0
              refine .inr ⟨hm3, d, _, g, hdecl, hg, ?_, ?_⟩
              · intro e
                have := hl3.errs
                simp only at e this
                omega
              · intro r hr
                obtain ⟨q, h1, h2⟩ := hr3 r hr
                exact ⟨q, h1, fun e => hsome3 _ (h2 e)⟩
            · rename_i hne
              refine (hi3.own i s0 hs0 ?_).imp_right fun o => o.mono hsome3 (Nat.le_refl _) (fun _ x => x)
              intro e
              rcases List.mem_cons.1 e with e | e
              · exact hne e
              · exact hni e
          · intro i him
            exact ⟨hsome3 i (hi3.made i him).1, (hi3.made i him).2⟩
          · intro i s0 hs0
            have h1 := hl1.schemata i s0 hs0
            have hne : i ≠ id := by rintro rfl; rw [hnone] at h1; cases h1
            simp only
            rw [GoMap.get_put, if_neg hne]
            refine hl3.schemata i s0 ?_
            simp only
            rw [GoMap.get_put, if_neg hne]
            exact h1
          · have := hl3.errs
            have := hl1.errs
            simp only at *
            omega
          · intro p hp
            exact hl3.packages p (hl1.packages p hp)
          · exact hl1.made.trans (List.IsPrefix.trans (List.prefix_append ..) hl3.made)
          · intro _
            simp only
            rw [GoMap.get_put, if_pos rfl]; rfl

theorem need_fine : ∀ n, Fine S marshal σ (S.need marshal σ n) := by
  intro n
  induction n with
  | zero => intro W id st st' _ h; cases h
  | succ n ih =>
    intro W id st st' hi h
    exact needStep_fine ih W id st st' hi h

theorem needAll_fine {n : Nat} : ∀ (ids : List TypeIdent) {st st' : PState}, PInv S marshal σ [] st → S.needAll marshal σ n ids st = .ok st' →
    PInv S marshal σ [] st' ∧ PState.Le st st' ∧ (st'.errs = 0 → ∀ id ∈ ids, (GoMap.get st'.schemata id).isSome) := by
  intro ids
  induction ids with
  | nil => intro st st' hi h; cases h; exact ⟨hi, .refl, nofun⟩
  | cons id ids ih =>
    intro st st' hi h
    rw [Src.needAll] at h
    split at h
    · cases h
    · rename_i st1 heq
      obtain ⟨i1, l1, e1⟩ := need_fine n _ _ _ _ hi heq
      obtain ⟨i2, l2, e2⟩ := ih i1 h
      refine ⟨i2, l1.trans l2, fun e x hx => ?_⟩
      rcases List.mem_cons.1 hx with rfl | hx
      · exact l2.some (e1 (by have := l2.errs; omega))
      · exact e2 e x hx

end Verif.Crd

import Verif.DeepCopy.SupportedSpec
import Verif.DeepCopy.Theorems
/-!
# C43: the generator succeeds for supported types, and names only types that have names
-/
namespace Verif.DeepCopy
open Spec

variable {P : Prog}

/-! ## Names -/

theorem unnamable_iff : ∀ {t : Ty}, t.unnamable = 0 ↔ Nameable t
  | .basic ok => by simp only [Ty.unnamable, true_iff]; exact .basic ok
  | .named n => by simp only [Ty.unnamable, true_iff]; exact .named n
  | .alias n => by simp only [Ty.unnamable, true_iff]; exact .alias n
  | .ptr t => by
    rw [Ty.unnamable, unnamable_iff]
    exact ⟨.ptr, fun | .ptr h => h⟩
  | .slice t => by
    rw [Ty.unnamable, unnamable_iff]
    exact ⟨.slice, fun | .slice h => h⟩
  | .map k t => by
    rw [Ty.unnamable, Nat.add_eq_zero_iff, unnamable_iff, unnamable_iff]
    exact ⟨fun h => .map h.1 h.2, fun | .map h1 h2 => ⟨h1, h2⟩⟩
  | .struct fs => by simp only [Ty.unnamable, Nat.one_ne_zero, false_iff]; nofun
  | .other n => by simp only [Ty.unnamable, Nat.one_ne_zero, false_iff]; nofun

/-- The blocks inside name only types that have names. -/
def NamesOk (block : Ty → Ty → Option Gen) : Prop := ∀ name t g, block name t = some g → g.errs = 0 → ∀ u ∈ namesAll g.code, Nameable u

section
variable {block : Ty → Ty → Option Gen} (hb : NamesOk block)
include hb

theorem names_map {name k v : Ty} {g : Gen} (h : P.genMap block name name.unnamable k v = some g) (he : g.errs = 0) : ∀ u ∈ namesAll g.code, Nameable u := by
  unfold Prog.genMap at h
  split at h
  · cases h; cases he
  · split at h
    · cases h
      intro u hu
      have hn := unnamable_iff.1 he
      have : u = name := by
        revert hu
        simp only [namesAll, names]
        split
        · simp [names]
        · split <;> simp [names]
      exact this ▸ hn
    · split at h
      · cases h
        intro u hu
        simp only [namesAll, names, List.append_nil, List.mem_singleton] at hu
        exact hu ▸ unnamable_iff.1 he
      · split at h
        · obtain ⟨b, hb', rfl⟩ := Option.map_eq_some_iff.1 h
          simp only [Nat.add_eq_zero_iff] at he
          intro u hu
          simp only [namesAll, names, List.append_nil, List.mem_append, List.mem_cons, List.not_mem_nil, or_false] at hu
          obtain rfl | rfl | hu := hu
          · exact unnamable_iff.1 he.1.1
          · exact unnamable_iff.1 he.1.2
          · exact hb _ _ _ hb' he.2 u hu
        · split at h
          · cases h
            intro u hu
            simp only [namesAll, names, List.append_nil, List.mem_singleton] at hu
            exact hu ▸ unnamable_iff.1 he
          · cases h; cases he

theorem names_slice {name e : Ty} {g : Gen} (h : P.genSlice block name name.unnamable e = some g) (he : g.errs = 0) : ∀ u ∈ namesAll g.code, Nameable u := by
  unfold Prog.genSlice at h
  split at h
  · cases h
    intro u hu
    simp only [namesAll, names, List.append_nil, List.mem_singleton] at hu
    exact hu ▸ unnamable_iff.1 he
  · split at h
    · cases h
      intro u hu
      simp only [namesAll, names, List.append_nil, List.mem_singleton] at hu
      exact hu ▸ unnamable_iff.1 he
    · split at h
      · obtain ⟨b, hb', rfl⟩ := Option.map_eq_some_iff.1 h
        simp only [Nat.add_eq_zero_iff] at he
        intro u hu
        simp only [namesAll, names, List.append_nil, List.mem_append, List.mem_singleton] at hu
        obtain rfl | hu := hu
        · exact unnamable_iff.1 he.1
        · exact hb _ _ _ hb' he.2 u hu
      · split at h
        · cases h
          intro u hu
          simp only [namesAll, names, List.append_nil, List.mem_singleton] at hu
          exact hu ▸ unnamable_iff.1 he
        · cases h; cases he

theorem names_ptr {e : Ty} {g : Gen} (h : P.genPtr block e = some g) (he : g.errs = 0) : ∀ u ∈ namesAll g.code, Nameable u := by
  unfold Prog.genPtr at h
  split at h
  · cases h
    intro u hu
    revert hu
    simp only [namesAll]
    split <;> simp [names]
  · split at h
    · cases h
      intro u hu
      simp only [namesAll, names, List.append_nil, List.mem_singleton] at hu
      exact hu ▸ unnamable_iff.1 he
    · split at h
      · obtain ⟨b, hb', rfl⟩ := Option.map_eq_some_iff.1 h
        simp only [Nat.add_eq_zero_iff] at he
        intro u hu
        simp only [namesAll, names, List.append_nil, List.mem_append, List.mem_singleton] at hu
        obtain rfl | hu := hu
        · exact unnamable_iff.1 he.1
        · exact hb _ _ _ hb' he.2 u hu
      · split at h
        · cases h
          intro u hu
          simp only [namesAll, names, List.append_nil, List.mem_singleton] at hu
          exact hu ▸ unnamable_iff.1 he
        · cases h; cases he

theorem names_fields : ∀ {fs : List (String × Ty)} {g : Gen}, P.genFields block fs = some g → g.errs = 0 → ∀ u ∈ namesAll g.code, Nameable u
  | [], g, h, _ => by cases h; nofun
  | (f, t) :: fs, g, h, he => by
    have hblock : ∀ {b r : Gen}, block t t = some b → P.genFields block fs = some r → b.errs + r.errs = 0 → ∀ u ∈ namesAll (.fieldBlock f b.code :: r.code), Nameable u := by
      intro b r h1 h2 h3 u hu
      simp only [namesAll, names, List.mem_append] at hu
      obtain hu | hu := hu
      · exact hb _ _ _ h1 (by omega) u hu
      · exact names_fields h2 (by omega) u hu
    rw [Prog.genFields] at h
    split at h
    · split at h
      · split at h
        · rename_i h1 h2; cases h; exact hblock h1 h2 he
        · cases h
      · obtain ⟨r, hr, rfl⟩ := Option.map_eq_some_iff.1 h
        intro u hu
        refine names_fields hr he u ?_
        revert hu
        simp only [namesAll]
        split <;> simp [names]
    · split at h
      · split at h
        · rename_i h1 h2; cases h; exact hblock h1 h2 he
        · cases h
      · split at h
        · exact names_fields h he
        · obtain ⟨r, hr, rfl⟩ := Option.map_eq_some_iff.1 h
          intro u hu
          refine names_fields hr he u ?_
          revert hu
          simp only [namesAll]
          split <;> simp [names]
        · cases h; cases he

end

theorem names_block : ∀ m, NamesOk (P.genBlock m)
  | 0 => nofun
  | m + 1 => by
    intro name t g h he
    have hb := names_block m
    rw [Prog.genBlock, Prog.genStep] at h
    split at h
    · cases h; nofun
    · split at h
      · cases h
        intro u hu
        revert hu
        split <;> simp [namesAll, names]
      · exact names_map hb h he
      · exact names_slice hb h he
      · obtain ⟨r, hr, rfl⟩ := Option.map_eq_some_iff.1 h
        intro u hu
        simp only [namesAll, names, List.nil_append] at hu
        exact names_fields hb hr he u hu
      · exact names_ptr hb h he
      · cases h; cases he

/-- **C43.** If no error is reported, then each type that is named in the code has a name in Go: there are no unnamed structs, interfaces, arrays, channels and functions in it, at any depth. -/
theorem C43_names (P : Prog) (depth : Nat) (n : String) (g : Gen) (h : P.genInto depth n = some (some g)) (he : g.errs = 0) : ∀ u ∈ namesAll g.code, Nameable u := by
  unfold Prog.genInto at h
  split at h
  · cases h
  · split at h
    · cases h
      intro u hu
      revert hu
      simp only [namesAll]
      split <;> simp [names]
    · obtain ⟨g', h', e⟩ := Option.map_eq_some_iff.1 h
      cases e
      exact names_block depth _ _ _ h' he

/-! ## Supported types -/

theorem hasAny_of_named {n : String} : P.hasAny (.named n) = true ↔ HasOwn P n := by
  unfold Prog.hasAny Prog.hasCopy Prog.hasInto Prog.owner HasOwn
  simp only [Prog.unalias, Option.bind_some, Option.map_some, Option.getD_some, Bool.or_eq_true]
  cases (P.manual n).copy <;> simp

theorem hasAny_ptr {n : String} : P.hasAny (.ptr (.named n)) = P.hasAny (.named n) := rfl

theorem any_split {t : Ty} : (P.hasInto t || (P.hasCopy t).isSome) = P.hasAny t := by
  unfold Prog.hasAny; rw [Bool.or_comm]

theorem noAny {n : String} (h : ¬ HasOwn P n) : P.hasAny (.named n) = false := by
  cases hc : P.hasAny (.named n)
  · rfl
  · exact (h (hasAny_of_named.1 hc)).elim

theorem hasCopy_none {t : Ty} (h : P.hasAny t = false) : (P.hasCopy t).isSome = false := by
  unfold Prog.hasAny at h
  exact (Bool.or_eq_false_iff.1 h).1

theorem Spec.Ref.byRef {t : Ty} (h : Ref t) : t.byRef = true := by cases h <;> rfl
theorem Spec.Ref.unalias {t : Ty} (h : Ref t) : P.unalias t = t := by cases h <;> rfl
theorem Spec.Ref.underlying {t : Ty} (h : Ref t) : P.underlying t = t := by cases h <;> rfl

theorem Spec.Flat.unalias {t : Ty} (h : Flat P t) : P.unalias t = t := by cases h <;> rfl

theorem Spec.Plain.unalias {t : Ty} (h : Plain P t) : P.unalias t = t := by
  cases h with
  | flat h => exact h.unalias
  | _ => rfl

theorem Spec.Flat.nameable {t : Ty} (h : Flat P t) : Nameable t := by
  cases h with
  | basic => exact .basic _
  | _ => exact .named _

theorem Spec.Plain.nameable {t : Ty} (h : Plain P t) : Nameable t := by
  induction h with
  | flat h => exact h.nameable
  | own => exact .named _
  | named => exact .named _
  | ptrFlat h => exact .ptr h.nameable
  | ptrOwn => exact .ptr (.named _)
  | ptrRef _ _ _ ih => exact .ptr ih
  | slice _ _ ih => exact .slice ih
  | map hk _ _ ih =>
    refine .map ?_ ih
    obtain rfl | ⟨n, rfl, -⟩ := hk
    · exact .basic _
    · exact .named _

/-- The result of a block for `t` is fine: there is one, from some depth on, without errors, and it compiles for `t` and for a type that is written out. -/
def Good (P : Prog) (t : Ty) : Prop :=
  ∃ d, ∀ m, d ≤ m → ∃ g, P.genBlock m t t = some g ∧ g.errs = 0 ∧ Stmt.noAddrs g.code = true ∧
    ∀ t', P.underlying t' = P.underlying t → (P.unalias t' = t ∨ (P.unalias t').literal = true) → P.CompilesAll g.code t'

theorem not_own {t : Ty} (h : P.hasAny t = false) : ¬ ((P.underlying t).isPtr = false ∧ P.hasAny t = true) := by rw [h]; rintro ⟨-, h⟩; cases h

theorem named_literal {t t' : Ty} (hu : P.unalias t = t) (hl : P.unalias t' = t ∨ (P.unalias t').literal = true) (h : P.underlying t' = P.underlying t) : P.Assignable t t' := by
  obtain h' | h' := hl
  · exact .inl (by rw [hu, h'])
  · exact .inr ⟨h.symm, .inr h'⟩

theorem Spec.Flat.noAny {t : Ty} (h : Flat P t) : P.hasAny t = false := by
  cases h with
  | basic => rfl
  | scalar h => exact DeepCopy.noAny h
  | struct h => exact DeepCopy.noAny h

theorem Spec.Flat.noAny_ptr {t : Ty} (h : Flat P t) : P.hasAny (.ptr t) = false := by
  cases h with
  | basic => rfl
  | scalar h => exact (hasAny_ptr).trans (DeepCopy.noAny h)
  | struct h => exact (hasAny_ptr).trans (DeepCopy.noAny h)

theorem Spec.Flat.methods {t : Ty} {fs : List (String × Ty)} (h : Flat P t) (hs : P.underlying t = .struct fs) : ∃ n, t = .named n ∧ P.methods n = true ∧ P.recvPtr n = true := by
  cases h with
  | basic => cases hs
  | scalar _ hu => exact absurd (hu.symm.trans hs) (by nofun)
  | @struct n fs' ho hu hm =>
    refine ⟨n, rfl, hm, ?_⟩
    have hc : (P.manual n).copy = none := by
      cases hx : (P.manual n).copy with
      | none => rfl
      | some _ => exact (ho (.inl (by rw [hx]; nofun))).elim
    unfold Prog.recvPtr
    rw [hc]
    simp [Prog.usePtrReceiver, hu, Ty.byRef]

theorem Spec.Flat.under {t : Ty} (h : Flat P t) : P.underlying t = .basic true ∨ ∃ fs, P.underlying t = .struct fs := by
  cases h with
  | basic => exact .inl rfl
  | scalar _ hu => exact .inl hu
  | struct _ hu => exact .inr ⟨_, hu⟩

/-- A pointer to something flat. -/
theorem gen_ptrFlat {block : Ty → Ty → Option Gen} {e : Ty} (h : Flat P e) : ∃ g, P.genPtr block e = some g ∧ g.errs = 0 ∧ Stmt.noAddrs g.code = true ∧ ∀ t', P.underlying t' = .ptr e → P.CompilesAll g.code t' := by
  have hn := unnamable_iff.2 h.nameable
  unfold Prog.genPtr
  rw [any_split, if_neg (by rw [h.noAny]; nofun)]
  split
  · refine ⟨_, rfl, hn, rfl, fun t' ht => ?_⟩
    simp [Prog.CompilesAll, Prog.Compiles, ht]
  · rename_i hf
    obtain hb | ⟨fs, hs⟩ := h.under
    · refine (hf ?_).elim
      rw [hb]; unfold Prog.fine; rw [Prog.fineTo]
    · obtain ⟨n, rfl, hm, -⟩ := h.methods hs
      rw [if_neg (by rw [hs]; nofun), hs]
      refine ⟨_, rfl, hn, rfl, fun t' ht => ?_⟩
      simp only [Prog.CompilesAll, Prog.Compiles, ht, and_true, true_and]
      exact ⟨n, rfl, hm⟩

theorem yields_recv {n : String} (h : Own P n) : P.yieldsPtr (.named n) = P.recvPtr n := by
  unfold Prog.yieldsPtr Prog.recvPtr
  have : P.hasCopy (.named n) = (P.manual n).copy := rfl
  rw [this]
  congr 1
  rw [Prog.resultPtr, Prog.usePtrReceiver]
  have := h.2.2
  cases hu : P.under n <;> simp_all [Ty.byRef]

theorem yields_ptr {n : String} : P.yieldsPtr (.ptr (.named n)) = P.yieldsPtr (.named n) := by
  unfold Prog.yieldsPtr
  have : P.hasCopy (.ptr (.named n)) = P.hasCopy (.named n) := rfl
  rw [this, Prog.resultPtr]

/-- A pointer to a type with methods of its own. -/
theorem gen_ptrOwn {block : Ty → Ty → Option Gen} {n : String} (h : Own P n) : ∃ g, P.genPtr block (.named n) = some g ∧ g.errs = 0 ∧ Stmt.noAddrs g.code = true ∧ ∀ t', P.CompilesAll g.code t' := by
  unfold Prog.genPtr
  rw [any_split, if_pos (hasAny_of_named.2 h.1), yields_recv h]
  refine ⟨_, rfl, rfl, ?_, fun t' => ?_⟩
  · split <;> rfl
  · simp only
    cases hr : P.recvPtr n
    · rw [if_neg (by nofun)]
      exact ⟨⟨⟨n, rfl, h.2.1⟩, n, rfl, h.2.1, hr⟩, trivial⟩
    · rw [if_pos rfl]
      exact ⟨⟨⟨n, rfl, h.2.1⟩, n, rfl, h.2.1, hr⟩, trivial⟩

/-- What is generated for references. -/
def Prog.genRef (P : Prog) (block : Ty → Ty → Option Gen) (t : Ty) : Ty → Option Gen
  | .map k v => P.genMap block t t.unnamable k v
  | .slice e => P.genSlice block t t.unnamable e
  | .ptr e => P.genPtr block e
  | _ => none

theorem good_of_ref {t u : Ty} (hr : Ref u) (ha : u.isPtr = true ∨ P.hasAny t = false) (hu : P.underlying t = u) (htu : P.unalias t = t)
    (h : ∃ d, ∀ m, d ≤ m → ∃ g, P.genRef (P.genBlock m) t u = some g ∧ g.errs = 0 ∧ Stmt.noAddrs g.code = true ∧ ∀ t', P.underlying t' = u → P.Assignable t t' → P.CompilesAll g.code t') : Good P t := by
  obtain ⟨d, h⟩ := h
  refine ⟨d + 1, fun m hm => ?_⟩
  obtain ⟨m, rfl⟩ : ∃ m', m = m' + 1 := ⟨m - 1, by omega⟩
  obtain ⟨g, h1, h2, h3, h4⟩ := h m (by omega)
  refine ⟨g, ?_, h2, h3, fun t' ht hl => h4 t' (ht.trans hu) (named_literal htu hl ht)⟩
  rw [Prog.genBlock, ← h1]
  unfold Prog.genStep
  rw [if_neg (by rw [hu]; rintro ⟨h5, h6⟩; obtain ha | ha := ha; (rw [ha] at h5; cases h5); (rw [ha] at h6; cases h6)), hu]
  cases hr <;> rfl

/-- What is known of supported types by induction. -/
def PlainGood (P : Prog) (t : Ty) : Prop := (P.underlying t).byRef = true → (P.underlying t).isPtr = true ∨ P.hasAny t = false → Good P t

theorem fine_ref {t : Ty} (h : Ref t) : P.fine t = false := by
  unfold Prog.fine
  cases h <;> cases P.depth <;> rfl

theorem Spec.Plain.under {t : Ty} (h : Plain P t) (ho : P.hasAny t = false ∨ t.isPtr = true) : Flat P t ∨ Ref (P.underlying t) := by
  cases h with
  | flat h => exact .inl h
  | own h =>
    obtain ho | ho := ho
    · rw [hasAny_of_named.2 h.1] at ho; cases ho
    · cases ho
  | named _ h _ => exact .inr h
  | ptrFlat => exact .inr (.ptr _)
  | ptrOwn => exact .inr (.ptr _)
  | ptrRef => exact .inr (.ptr _)
  | slice => exact .inr (.slice _)
  | map => exact .inr (.map _ _)

theorem fine_underlying_ref {t : Ty} (h : Ref (P.underlying t)) (htu : P.unalias t = t) : P.fine t = false := by
  cases t with
  | named n =>
    unfold Prog.fine
    cases P.depth with
    | zero => rfl
    | succ d =>
      rw [Prog.fineTo]
      have h : Ref (P.under n) := h
      generalize P.under n = u at h
      cases h <;> cases d <;> rfl
  | basic => cases h
  | «alias» =>
    unfold Prog.fine
    cases P.depth <;> rfl
  | struct => cases h
  | ptr => exact fine_ref h
  | slice => exact fine_ref h
  | map => exact fine_ref h
  | other => cases h

theorem gen_slice {t e : Ty} (hu : P.underlying t = .slice e) (hn : t.unnamable = 0) (ho : ∀ n, e = .ptr (.named n) → ¬ HasOwn P n) (he : Plain P e) (ih : PlainGood P e) :
    ∃ d, ∀ m, d ≤ m → ∃ g, P.genRef (P.genBlock m) t (.slice e) = some g ∧ g.errs = 0 ∧ Stmt.noAddrs g.code = true ∧ ∀ t', P.underlying t' = .slice e → P.Assignable t t' → P.CompilesAll g.code t' := by
  simp only [Prog.genRef]
  unfold Prog.genSlice
  cases hany : P.hasAny e with
  | true =>
    have : ∃ n, e = .named n ∧ P.methods n = true := by
      cases he with
      | flat h => rw [h.noAny] at hany; cases hany
      | own h => exact ⟨_, rfl, h.2.1⟩
      | named h => rw [noAny h] at hany; cases hany
      | ptrFlat h => rw [h.noAny_ptr] at hany; cases hany
      | ptrOwn h => exact (ho _ rfl h.1).elim
      | ptrRef h => cases h <;> cases hany
      | slice => cases hany
      | map => cases hany
    obtain ⟨n, rfl, hm⟩ := this
    refine ⟨0, fun m _ => ⟨_, if_pos rfl, hn, rfl, fun t' _ ha => ?_⟩⟩
    exact ⟨ha, ⟨n, rfl, hm⟩, trivial⟩
  | false =>
    simp only [Bool.false_eq_true, if_false]
    cases hf : P.fine (P.underlying e) with
    | true =>
      refine ⟨0, fun m _ => ⟨_, if_pos rfl, hn, rfl, fun t' _ ha => ?_⟩⟩
      exact ⟨ha, trivial, trivial⟩
    | false =>
      simp only [Bool.false_eq_true, if_false]
      obtain h | h := he.under (.inl hany)
      · obtain hb | ⟨fs, hs⟩ := h.under
        · rw [hb] at hf; unfold Prog.fine at hf; rw [Prog.fineTo] at hf; cases hf
        · obtain ⟨n, rfl, hm, -⟩ := h.methods hs
          rw [hs]
          refine ⟨0, fun m _ => ⟨_, rfl, hn, rfl, fun t' _ ha => ?_⟩⟩
          exact ⟨ha, ⟨n, rfl, hm⟩, trivial⟩
      · obtain ⟨d, hd⟩ := ih h.byRef (.inr hany)
        refine ⟨d, fun m hm => ?_⟩
        obtain ⟨g, h1, h2, h3, h4⟩ := hd m hm
        rw [if_pos h.byRef, h1]
        refine ⟨_, rfl, by simp only [hn, h2], by simp [Stmt.noAddrs, Stmt.noAddr, h3], fun t' ht ha => ⟨ha, ?_, trivial⟩⟩
        simp only [Prog.Compiles, ht]
        exact h4 e rfl (.inl he.unalias)

theorem gen_map {t k e : Ty} (hdep : 1 ≤ P.depth) (hu : P.underlying t = .map k e) (hn : t.unnamable = 0) (hk : k = .basic true ∨ ∃ n, k = .named n ∧ P.under n = .basic true)
    (ho : ∀ n, e = .ptr (.named n) → HasOwn P n → P.recvPtr n = true) (he : Plain P e) (ih : PlainGood P e) (hnu : P.hasAny e = false → Ref (P.underlying e) → Nameable (P.underlying e)) :
    ∃ d, ∀ m, d ≤ m → ∃ g, P.genRef (P.genBlock m) t (.map k e) = some g ∧ g.errs = 0 ∧ Stmt.noAddrs g.code = true ∧ ∀ t', P.underlying t' = .map k e → P.Assignable t t' → P.CompilesAll g.code t' := by
  have fineScalar : ∀ {k}, (k = .basic true ∨ ∃ n, k = .named n ∧ P.under n = .basic true) → P.fine k = true := by
    rintro k (rfl | ⟨n, rfl, hn⟩)
    · unfold Prog.fine; rw [Prog.fineTo]
    · unfold Prog.fine
      obtain ⟨d, hd⟩ : ∃ d, P.depth = d + 1 := ⟨P.depth - 1, by omega⟩
      rw [hd, Prog.fineTo, hn, Prog.fineTo]
  simp only [Prog.genRef]
  unfold Prog.genMap
  simp only [fineScalar hk, any_split, Bool.true_eq_false, if_false]
  cases hany : P.hasAny e with
  | true =>
    have : ∃ n, (e = .named n ∨ e = .ptr (.named n)) ∧ Own P n := by
      cases he with
      | flat h => rw [h.noAny] at hany; cases hany
      | own h => exact ⟨_, .inl rfl, h⟩
      | named h => rw [noAny h] at hany; cases hany
      | ptrFlat h => rw [h.noAny_ptr] at hany; cases hany
      | ptrOwn h => exact ⟨_, .inr rfl, h⟩
      | ptrRef h => cases h <;> cases hany
      | slice => cases hany
      | map => cases hany
    simp only [if_true]
    obtain ⟨n, rfl | rfl, hown⟩ := this
    · rw [yields_recv hown]
      cases hr : P.recvPtr n
      · refine ⟨0, fun m _ => ⟨_, rfl, hn, rfl, fun t' _ ha => ?_⟩⟩
        exact ⟨ha, ⟨n, rfl, hown.2.1, hr⟩, trivial⟩
      · refine ⟨0, fun m _ => ⟨_, rfl, hn, rfl, fun t' _ ha => ?_⟩⟩
        exact ⟨ha, ⟨rfl, n, rfl, hown.2.1, hr⟩, trivial⟩
    · have hr := ho n rfl hown.1
      rw [yields_ptr, yields_recv hown, hr]
      refine ⟨0, fun m _ => ⟨_, rfl, hn, rfl, fun t' _ ha => ?_⟩⟩
      exact ⟨ha, ⟨n, rfl, hown.2.1, hr⟩, trivial⟩
  | false =>
    simp only [Bool.false_eq_true, if_false]
    cases hf : P.fine e with
    | true =>
      refine ⟨0, fun m _ => ⟨_, if_pos rfl, hn, rfl, fun t' _ ha => ?_⟩⟩
      exact ⟨ha, trivial, trivial⟩
    | false =>
      simp only [Bool.false_eq_true, if_false]
      obtain h | h := he.under (.inl hany)
      · obtain hb | ⟨fs, hs⟩ := h.under
        · refine absurd (fineScalar (k := e) ?_) (by rw [hf]; nofun)
          cases h with
          | basic => exact .inl rfl
          | scalar _ h => exact .inr ⟨_, rfl, h⟩
          | struct _ h => exact absurd (h.symm.trans hb) (by nofun)
        · obtain ⟨n, rfl, hm, hr⟩ := h.methods hs
          rw [hs]
          refine ⟨0, fun m _ => ⟨_, rfl, hn, rfl, fun t' _ ha => ?_⟩⟩
          exact ⟨ha, ⟨rfl, n, rfl, hm, hr⟩, trivial⟩
      · obtain ⟨d, hd⟩ := ih h.byRef (.inr hany)
        refine ⟨d, fun m hm => ?_⟩
        obtain ⟨g, h1, h2, h3, h4⟩ := hd m hm
        rw [if_pos h.byRef, h1]
        refine ⟨_, rfl, by simp only [hn, h2, unnamable_iff.2 (hnu hany h)], by simp [Stmt.noAddrs, Stmt.noAddr, h3], fun t' ht ha => ⟨ha, ?_, trivial⟩⟩
        simp only [Prog.Compiles]
        refine h4 _ h.underlying (.inr ?_)
        rw [h.unalias]
        cases h' : P.underlying e with
        | named => rw [h'] at h; cases h
        | _ => rfl

theorem gen_ptrRef {e : Ty} (hr : Ref e) (ho : ∀ n, e = .ptr (.named n) → ¬ HasOwn P n) (he : Plain P e) (ih : PlainGood P e) :
    ∃ d, ∀ m, d ≤ m → ∃ g, P.genPtr (P.genBlock m) e = some g ∧ g.errs = 0 ∧ Stmt.noAddrs g.code = true ∧ ∀ t', P.underlying t' = .ptr e → P.CompilesAll g.code t' := by
  have hany : P.hasAny e = false := by
    cases he with
    | flat h => exact h.noAny
    | own h => cases hr
    | named h => cases hr
    | ptrFlat h => exact h.noAny_ptr
    | ptrOwn h => exact (ho _ rfl h.1).elim
    | ptrRef h => cases h <;> rfl
    | slice => rfl
    | map => rfl
  have hne := unnamable_iff.2 he.nameable
  obtain ⟨d, hd⟩ := ih (by rw [hr.underlying]; exact hr.byRef) (.inr hany)
  refine ⟨d, fun m hm => ?_⟩
  obtain ⟨g, h1, h2, h3, h4⟩ := hd m hm
  unfold Prog.genPtr
  rw [any_split, if_neg (by rw [hany]; nofun), hr.underlying, if_neg (by rw [fine_ref hr]; nofun), if_pos hr.byRef, h1]
  refine ⟨_, rfl, by simp only [hne, h2], by simp [Stmt.noAddrs, Stmt.noAddr, h3], fun t' ht => ?_⟩
  simp only [Prog.CompilesAll, Prog.Compiles, ht, true_and, and_true]
  exact h4 e rfl (.inl hr.unalias)

theorem Spec.Plain.nameable_under {e : Ty} (he : Plain P e) (ha : P.hasAny e = false) (h : Ref (P.underlying e)) : Nameable (P.underlying e) := by
  cases he with
  | flat hf =>
    obtain h' | ⟨fs, h'⟩ := hf.under <;> (rw [h'] at h; cases h)
  | own ho => rw [hasAny_of_named.2 ho.1] at ha; cases ha
  | named _ _ hp => exact hp.nameable
  | ptrFlat hf => exact (Plain.ptrFlat hf).nameable
  | ptrOwn hf => exact (Plain.ptrOwn hf).nameable
  | ptrRef h1 h2 h3 => exact (Plain.ptrRef h1 h2 h3).nameable
  | slice h1 h2 => exact (Plain.slice h1 h2).nameable
  | map h1 h2 h3 => exact (Plain.map h1 h2 h3).nameable

/-- What is generated for a reference to supported types, where it has a name or not. -/
theorem plain_ref (hdep : 1 ≤ P.depth) {u : Ty} (h : Plain P u) : (Ref u → ∀ t, P.underlying t = u → t.unnamable = 0 →
    ∃ d, ∀ m, d ≤ m → ∃ g, P.genRef (P.genBlock m) t u = some g ∧ g.errs = 0 ∧ Stmt.noAddrs g.code = true ∧ ∀ t', P.underlying t' = u → P.Assignable t t' → P.CompilesAll g.code t') ∧ PlainGood P u := by
  have both : ∀ {u}, Plain P u → Ref u → (∀ t, P.underlying t = u → t.unnamable = 0 →
    ∃ d, ∀ m, d ≤ m → ∃ g, P.genRef (P.genBlock m) t u = some g ∧ g.errs = 0 ∧ Stmt.noAddrs g.code = true ∧ ∀ t', P.underlying t' = u → P.Assignable t t' → P.CompilesAll g.code t') →
    (Ref u → ∀ t, P.underlying t = u → t.unnamable = 0 →
    ∃ d, ∀ m, d ≤ m → ∃ g, P.genRef (P.genBlock m) t u = some g ∧ g.errs = 0 ∧ Stmt.noAddrs g.code = true ∧ ∀ t', P.underlying t' = u → P.Assignable t t' → P.CompilesAll g.code t') ∧ PlainGood P u := by
    intro u hp hr h
    exact ⟨fun _ => h, fun _ ha => good_of_ref hr (by rwa [hr.underlying] at ha) hr.underlying hp.unalias (h u hr.underlying (unnamable_iff.2 hp.nameable))⟩
  induction h with
  | flat h =>
    refine ⟨(by intro hr; cases h <;> cases hr), fun hb => ?_⟩
    obtain h' | ⟨fs, h'⟩ := h.under <;> (rw [h'] at hb; cases hb)
  | @own n h =>
    refine ⟨(by intro hr; cases hr), fun _ ha => ?_⟩
    rw [hasAny_of_named.2 h.1] at ha
    obtain ha | ha := ha
    · have ha : (P.under n).isPtr = true := ha
      cases hu : P.under n with
      | ptr t => exact (h.2.2 t hu).elim
      | _ => rw [hu] at ha; cases ha
    · cases ha
  | @named n ho hr hp ih => exact ⟨(by intro hr; cases hr), fun _ ha => good_of_ref hr (.inr (noAny ho)) rfl rfl (ih.1 hr (.named n) rfl rfl)⟩
  | @ptrFlat e h =>
    refine both (.ptrFlat h) (.ptr e) fun t hu hn => ⟨0, fun m _ => ?_⟩
    obtain ⟨g, h1, h2, h3, h4⟩ := gen_ptrFlat (block := P.genBlock m) h
    exact ⟨g, h1, h2, h3, fun t' ht _ => h4 t' ht⟩
  | ptrOwn h =>
    refine both (.ptrOwn h) (.ptr _) fun t hu hn => ⟨0, fun m _ => ?_⟩
    obtain ⟨g, h1, h2, h3, h4⟩ := gen_ptrOwn (block := P.genBlock m) h
    exact ⟨g, h1, h2, h3, fun t' ht _ => h4 t'⟩
  | @ptrRef e hre ho he ih =>
    refine both (.ptrRef hre ho he) (.ptr _) fun t hu hn => ?_
    obtain ⟨d, hd⟩ := gen_ptrRef hre ho he ih.2
    exact ⟨d, fun m hm => by obtain ⟨g, h1, h2, h3, h4⟩ := hd m hm; exact ⟨g, h1, h2, h3, fun t' ht _ => h4 t' ht⟩⟩
  | slice ho he ih => exact both (.slice ho he) (.slice _) fun t hu hn => gen_slice hu hn ho he ih.2
  | map hk ho he ih => exact both (.map hk ho he) (.map _ _) fun t hu hn => gen_map hdep hu hn hk ho he ih.2 he.nameable_under

/-- The fields of a struct. -/
theorem gen_fields (hdep : 1 ≤ P.depth) {all : List (String × Ty)} : ∀ {fs : List (String × Ty)}, (∀ f ∈ fs, Plain P f.2) → (∀ f ∈ fs, f ∈ all) →
    ∃ d, ∀ m, d ≤ m → ∃ g, P.genFields (P.genBlock m) fs = some g ∧ g.errs = 0 ∧ Stmt.noAddrs g.code = true ∧ ∀ t', P.underlying t' = .struct all → P.CompilesAll g.code t'
  | [], _, _ => ⟨0, fun m _ => ⟨{}, rfl, rfl, rfl, fun _ _ => trivial⟩⟩
  | (f, t) :: fs, h, hall => by
    obtain ⟨hp, hps⟩ := List.forall_mem_cons.1 h
    obtain ⟨ha, has⟩ := List.forall_mem_cons.1 hall
    have hp : Plain P t := hp
    obtain ⟨d, hd⟩ := gen_fields hdep hps has
    -- a block for the field
    have block : Good P t → ∃ d, ∀ m, d ≤ m → ∃ b r, P.genBlock m t t = some b ∧ P.genFields (P.genBlock m) fs = some r ∧ b.errs + r.errs = 0 ∧
        Stmt.noAddrs (.fieldBlock f b.code :: r.code) = true ∧ ∀ t', P.underlying t' = .struct all → P.CompilesAll (.fieldBlock f b.code :: r.code) t' := by
      rintro ⟨d', hd'⟩
      refine ⟨max d d', fun m hm => ?_⟩
      obtain ⟨b, b1, b2, b3, b4⟩ := hd' m (by omega)
      obtain ⟨r, r1, r2, r3, r4⟩ := hd m (by omega)
      refine ⟨b, r, b1, r1, by omega, by simp [Stmt.noAddrs, Stmt.noAddr, b3, r3], fun t' ht => ⟨?_, r4 t' ht⟩⟩
      simp only [Prog.Compiles, ht]
      exact ⟨t, ha, b4 t rfl (.inl hp.unalias)⟩
    -- one statement for it
    have one : ∀ s : Stmt, Stmt.noAddr s = true → (∀ t', P.underlying t' = .struct all → P.Compiles s t') → ∀ m, d ≤ m → ∃ g, ((P.genFields (P.genBlock m) fs).map fun r => { r with code := s :: r.code }) = some g ∧
        g.errs = 0 ∧ Stmt.noAddrs g.code = true ∧ ∀ t', P.underlying t' = .struct all → P.CompilesAll g.code t' := by
      intro s hs hc m hm
      obtain ⟨r, r1, r2, r3, r4⟩ := hd m hm
      rw [r1]
      exact ⟨_, rfl, r2, by simp [Stmt.noAddrs, hs, r3], fun t' ht => ⟨hc t' ht, r4 t' ht⟩⟩
    simp only [Prog.genFields, any_split]
    cases hany : P.hasAny t with
    | true =>
      simp only [if_true]
      cases hptr : t.isPtr with
      | true =>
        simp only [if_true]
        obtain ⟨d', hd'⟩ := block ((plain_ref hdep hp).2 (by cases t <;> first | rfl | cases hptr) (.inl (by cases t <;> first | rfl | cases hptr)))
        refine ⟨d', fun m hm => ?_⟩
        obtain ⟨b, r, b1, r1, e, n, c⟩ := hd' m hm
        rw [b1, r1]
        exact ⟨_, rfl, e, n, c⟩
      | false =>
        have : ∃ n, t = .named n ∧ Own P n := by
          cases hp with
          | flat h' => rw [h'.noAny] at hany; cases hany
          | own h' => exact ⟨_, rfl, h'⟩
          | named h' => rw [noAny h'] at hany; cases hany
          | ptrFlat => cases hptr
          | ptrOwn => cases hptr
          | ptrRef => cases hptr
          | slice => cases hany
          | map => cases hany
        obtain ⟨n, rfl, hown⟩ := this
        simp only [Bool.false_eq_true, if_false, yields_recv hown]
        refine ⟨d, one _ ?_ fun t' _ => ?_⟩
        · split <;> rfl
        · cases hr : P.recvPtr n
          · exact ⟨⟨n, rfl, hown.2.1⟩, n, rfl, hown.2.1, hr⟩
          · exact ⟨n, rfl, hown.2.1⟩
    | false =>
      simp only [Bool.false_eq_true, if_false]
      obtain hf | hr := hp.under (.inl hany)
      · obtain hb | ⟨fs', hs⟩ := hf.under
        · rw [hb]
          exact ⟨d, fun m hm => by simpa [Ty.byRef] using hd m hm⟩
        · rw [hs]
          obtain ⟨n, rfl, hm, -⟩ := hf.methods hs
          refine ⟨d, one _ ?_ fun t' _ => ?_⟩
          · split <;> rfl
          · split
            · trivial
            · exact ⟨n, rfl, hm⟩
      · simp only [hr.byRef, if_true]
        obtain ⟨d', hd'⟩ := block ((plain_ref hdep hp).2 hr.byRef (.inr hany))
        refine ⟨d', fun m hm => ?_⟩
        obtain ⟨b, r, b1, r1, e, n, c⟩ := hd' m hm
        rw [b1, r1]
        exact ⟨_, rfl, e, n, c⟩

/-- **C43.** The generator succeeds for each type that is supported: from some depth of recursion on it ends, it reports no error, and the code compiles and takes no address of a copy in a loop over a map. -/
theorem C43_supported (P : Prog) (hdep : 1 ≤ P.depth) (n : String) (h : Supported P n) : ∃ d, ∀ depth, d ≤ depth → P.genInto depth n = some none ∨
    ∃ g, P.genInto depth n = some (some g) ∧ g.errs = 0 ∧ P.CompilesAll g.code (.named n) ∧ Stmt.noAddrs g.code = true := by
  unfold Prog.genInto
  by_cases hi : P.hasInto (.named n) = true
  · exact ⟨0, fun _ _ => .inl (if_pos hi)⟩
  · simp only [hi, if_false]
    cases hc : P.hasCopy (.named n) with
    | some onPtr =>
      have ho : HasOwn P n := hasAny_of_named.1 (by unfold Prog.hasAny; rw [hc]; rfl)
      have hm : P.methods n = true := by
        cases h with
        | own _ hm => exact hm
        | scalar h => exact (h ho).elim
        | ref h => exact (h ho).elim
        | struct h => exact (h ho).elim
      have hr : P.recvPtr n = onPtr := by
        have : P.hasCopy (.named n) = (P.manual n).copy := rfl
        unfold Prog.recvPtr
        rw [← this, hc]; rfl
      refine ⟨0, fun _ _ => .inr ⟨_, rfl, rfl, ?_, ?_⟩⟩
      · cases onPtr
        · exact ⟨⟨⟨n, rfl, hm⟩, n, rfl, hm, hr⟩, trivial⟩
        · exact ⟨⟨⟨n, rfl, hm⟩, n, rfl, hm, hr⟩, trivial⟩
      · cases onPtr <;> rfl
    | none =>
      have hany : P.hasAny (.named n) = false := by
        unfold Prog.hasAny; rw [hc]; simpa using hi
      simp only
      suffices hs : ∃ d, ∀ m, d ≤ m → ∃ g, P.genBlock m (.named n) (.named n) = some g ∧ g.errs = 0 ∧ P.CompilesAll g.code (.named n) ∧ Stmt.noAddrs g.code = true by
        obtain ⟨d, hd⟩ := hs
        refine ⟨d, fun m hm => .inr ?_⟩
        obtain ⟨g, h1, h2⟩ := hd m hm
        exact ⟨g, by rw [h1]; rfl, h2⟩
      have step : ∀ m, P.genBlock (m + 1) (.named n) (.named n) = P.genStep (P.genBlock m) (.named n) 0 (.named n) := fun _ => rfl
      have big : ∀ {d m : Nat}, d + 1 ≤ m → ∃ m', m = m' + 1 ∧ d ≤ m' := fun {d m} h => ⟨m - 1, by omega, by omega⟩
      cases h with
      | own ho _ => rw [hasAny_of_named.2 ho] at hany; cases hany
      | scalar _ hu =>
        refine ⟨1, fun m hm => ?_⟩
        obtain ⟨m, rfl, -⟩ := big hm
        rw [step, Prog.genStep, if_neg (not_own hany), show P.underlying (.named n) = .basic true from hu]
        simp only [hc]
        exact ⟨_, rfl, rfl, ⟨trivial, trivial⟩, rfl⟩
      | ref _ hr hp =>
        have hg : Good P (.named n) := good_of_ref hr (.inr hany) rfl rfl ((plain_ref hdep hp).1 hr (.named n) rfl rfl)
        obtain ⟨d, hd⟩ := hg
        refine ⟨d, fun m hm => ?_⟩
        obtain ⟨g, h1, h2, h3, h4⟩ := hd m hm
        exact ⟨g, h1, h2, h4 _ rfl (.inl rfl), h3⟩
      | @struct fs _ hu hp =>
        obtain ⟨d, hd⟩ := gen_fields hdep (all := fs) hp fun _ h => h
        refine ⟨d + 1, fun m hm => ?_⟩
        obtain ⟨m, rfl, hm'⟩ := big hm
        obtain ⟨g, h1, h2, h3, h4⟩ := hd m hm'
        rw [step, Prog.genStep, if_neg (not_own hany), show P.underlying (.named n) = .struct fs from hu]
        simp only [h1]
        exact ⟨_, rfl, h2, ⟨trivial, h4 _ hu⟩, by simp [Stmt.noAddrs, Stmt.noAddr, h3]⟩

/-- **C43.** If all types that methods are generated for are supported, then the hypotheses of the theorems about the copies that the methods make are met. -/
theorem C43_clean (P : Prog) (hdep : 1 ≤ P.depth) (types : List String) (ht : ∀ n, P.generated n = true → n ∈ types) (h : ∀ n, P.generated n = true → Supported P n) : ∃ d, ∀ depth, d ≤ depth → P.Clean depth := by
  suffices hs : ∃ d, ∀ depth, d ≤ depth → ∀ n ∈ types, P.generated n = true → P.genInto depth n = some none ∨
      ∃ g, P.genInto depth n = some (some g) ∧ g.errs = 0 ∧ P.CompilesAll g.code (.named n) ∧ Stmt.noAddrs g.code = true by
    obtain ⟨d, hd⟩ := hs
    exact ⟨d, fun depth hm n hn => hd depth hm n (ht n hn) hn⟩
  clear ht
  induction types with
  | nil => exact ⟨0, fun _ _ => nofun⟩
  | cons n types ih =>
    obtain ⟨d, hd⟩ := ih
    by_cases hg : P.generated n = true
    · obtain ⟨d', hd'⟩ := C43_supported P hdep n (h n hg)
      refine ⟨max d d', fun depth hm n' hn' hg' => ?_⟩
      rcases List.mem_cons.1 hn' with rfl | hn'
      · exact hd' depth (by omega)
      · exact hd depth (by omega) n' hn' hg'
    · refine ⟨d, fun depth hm n' hn' hg' => ?_⟩
      rcases List.mem_cons.1 hn' with rfl | hn'
      · exact (hg hg').elim
      · exact hd depth hm n' hn' hg'

/-- **C43.** For supported types, every value that does not contain itself is copied: the generated `DeepCopy` gives a new value that stands for the same, refers to new memory only, and leaves all other memory as it was. -/
theorem C43_deepCopy_supported (P : Prog) (W : World) (hP : P.Ok) (hW : W.Copies P) (hdep : 1 ≤ P.depth) (types : List String) (ht : ∀ n, P.generated n = true → n ∈ types)
    (h : ∀ n, P.generated n = true → Supported P n) : ∃ d, ∀ depth, d ≤ depth → ∀ n, P.methods n = true → ∀ (T : Tree) (H : Heap) (Q : Nat → Prop) (i : Loc) (v : Val), Has P H Q (.named n) v T → H.read i = some v →
      (v ≠ .nil ∨ P.recvPtr n = false) → ∀ calls, T.size < calls → ∃ H' r, P.callCopy W (P.run W (P.code depth) calls) (.named n) H i = .ok (H', r) ∧ Extends H H' ∧
        (P.recvPtr n = true → ∃ o v', r = .ptr o ∧ New H H' o.addr ∧ H'.read o = some v' ∧ Has P H' (New H H') (.named n) v' T) ∧ (P.recvPtr n = false → Has P H' (New H H') (.named n) r T) := by
  obtain ⟨d, hd⟩ := C43_clean P hdep types ht h
  exact ⟨d, fun depth hm n hn T H Q i v hv hi hnil calls hc => C43_deepCopy_partial hP hW (hd depth hm) n hn hv hi hc (hnil.imp id .inr)⟩

end Verif.DeepCopy

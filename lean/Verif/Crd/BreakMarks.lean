import Verif.Crd.BreakSpec
import Verif.Crd.EncTheorems

/-!
# C78: what is left of the markers after they have all been applied without an error
-/
namespace Verif.Crd
open Spec

/-- Markers applied one after the other; `none` if one of them does not fit. -/
def runMarks (marshal : AnyVal → Option Raw) : List Mark → Base → Option Base
  | [], b => some b
  | m :: l, b =>
    match m.apply marshal b with
    | none => none
    | some b' => runMarks marshal l b'

theorem fold_run {marshal : AnyVal → Option Raw} : ∀ {l : List Named} {s s' : Schema} {n n' : Nat}, l.foldl (applyOne marshal) (s, n) = (s', n') →
    n ≤ n' ∧ (n' = n → ∃ b', runMarks marshal (l.map (·.mark)) s.base = some b' ∧ s' = s.withBase b') := by
  intro l
  induction l with
  | nil =>
    intro s s' n n' h
    cases h
    exact ⟨Nat.le_refl _, fun _ => ⟨s.base, rfl, (withBase_base s).symm⟩⟩
  | cons m l ih =>
    intro s s' n n' h
    rw [List.foldl_cons] at h
    unfold applyOne at h
    cases hm : m.mark.apply marshal s.base with
    | none =>
      rw [hm] at h
      simp only at h
      have := ih h
      exact ⟨by omega, fun he => by omega⟩
    | some b =>
      rw [hm] at h
      simp only at h
      obtain ⟨h1, h2⟩ := ih h
      refine ⟨h1, fun he => ?_⟩
      obtain ⟨b', h3, h4⟩ := h2 he
      rw [base_withBase] at h3
      refine ⟨b', ?_, by rw [h4, withBase_withBase]⟩
      rw [List.map_cons, runMarks, hm]
      exact h3

theorem run_key {α : Type} {marshal : AnyVal → Option Raw} (f : Base → α) (w : Mark → Option α) (hw : ∀ m b b', m.apply marshal b = some b' → f b' = (w m).getD (f b)) :
    ∀ {l : List Mark} {b b' : Base}, runMarks marshal l b = some b' → (∃ m ∈ l, w m = some (f b')) ∨ ((∀ m ∈ l, w m = none) ∧ f b' = f b) := by
  intro l
  induction l with
  | nil => intro b b' h; cases h; exact .inr ⟨nofun, rfl⟩
  | cons m l ih =>
    intro b b' h
    rw [runMarks] at h
    cases hm : m.apply marshal b with
    | none => rw [hm] at h; cases h
    | some b1 =>
      rw [hm] at h
      rcases ih h with ⟨m', h1, h2⟩ | ⟨h1, h2⟩
      · exact .inl ⟨m', List.mem_cons_of_mem _ h1, h2⟩
      · have h3 := hw m b b1 hm
        cases hwm : w m with
        | none =>
          rw [hwm] at h3
          refine .inr ⟨fun x hx => ?_, h2.trans h3⟩
          rcases List.mem_cons.1 hx with rfl | hx
          · exact hwm
          · exact h1 x hx
        | some a =>
          rw [hwm] at h3
          exact .inl ⟨m, List.mem_cons_self .., by rw [hwm, h2, h3]; rfl⟩

theorem run_fits {marshal : AnyVal → Option Raw} : ∀ {l : List Mark} {b b' : Base}, runMarks marshal l b = some b' → ∀ m ∈ l, ∃ b, Compatible marshal b m := by
  intro l
  induction l with
  | nil => intro _ _ _; nofun
  | cons m l ih =>
    intro b b' h x hx
    rw [runMarks] at h
    cases hm : m.apply marshal b with
    | none => rw [hm] at h; cases h
    | some b1 =>
      rw [hm] at h
      rcases List.mem_cons.1 hx with rfl | hx
      · exact ⟨b, Classical.byContradiction fun hc => by rw [apply_none _ _ _ hc] at hm; cases hm⟩
      · exact ih h x hx

theorem apply_put {marshal : AnyVal → Option Raw} {m : Mark} {b b' : Base} (h : m.apply marshal b = some b') : b' = putKey b (target m) (written marshal b m) := by
  by_cases hc : Compatible marshal b m
  · rw [apply_some _ _ _ hc] at h; cases h; rfl
  · rw [apply_none _ _ _ hc] at h; cases h

theorem run_rules {marshal : AnyVal → Option Raw} : ∀ {l : List Mark} {b b' : Base}, runMarks marshal l b = some b' →
    ∀ r, r ∈ b'.xValidations ↔ r ∈ b.xValidations ∨ ∃ ru me ex re fp old, .validation ru me ex re fp old ∈ l ∧ r = ruleOf ru me ex re fp old := by
  intro l
  induction l with
  | nil => intro b b' h r; cases h; simp
  | cons m l ih =>
    intro b b' h r
    rw [runMarks] at h
    cases hm : m.apply marshal b with
    | none => rw [hm] at h; cases h
    | some b1 =>
      rw [hm] at h
      rw [ih h r, apply_put hm]
      cases m with
      | validation ru me ex re fp old =>
        simp only [target, written, putKey, List.mem_append, List.mem_cons, List.not_mem_nil, or_false]
        constructor
        · rintro ((h1 | h1) | ⟨ru', me', ex', re', fp', old', h1, h2⟩)
          · exact .inl h1
          · exact .inr ⟨ru, me, ex, re, fp, old, .inl rfl, h1⟩
          · exact .inr ⟨ru', me', ex', re', fp', old', .inr h1, h2⟩
        · rintro (h1 | ⟨ru', me', ex', re', fp', old', h1 | h1, h2⟩)
          · exact .inl (.inl h1)
          · cases h1; exact .inl (.inr h2)
          · exact .inr ⟨ru', me', ex', re', fp', old', h1, h2⟩
      | _ =>
        simp only [target, written, putKey, List.mem_cons, reduceCtorEq, false_or]

/-- What the keywords are after the markers `own` have been applied. -/
structure Applied (marshal : AnyVal → Option Raw) (own : Mark → Prop) (b b' : Base) : Prop where
  maximum : (∃ v, own (.maximum v) ∧ b'.maximum = some v) ∨ ((∀ v, ¬ own (.maximum v)) ∧ b'.maximum = b.maximum)
  minimum : (∃ v, own (.minimum v) ∧ b'.minimum = some v) ∨ ((∀ v, ¬ own (.minimum v)) ∧ b'.minimum = b.minimum)
  exclusiveMaximum : (∃ v, own (.exclusiveMaximum v) ∧ b'.exclusiveMaximum = v) ∨ ((∀ v, ¬ own (.exclusiveMaximum v)) ∧ b'.exclusiveMaximum = b.exclusiveMaximum)
  exclusiveMinimum : (∃ v, own (.exclusiveMinimum v) ∧ b'.exclusiveMinimum = v) ∨ ((∀ v, ¬ own (.exclusiveMinimum v)) ∧ b'.exclusiveMinimum = b.exclusiveMinimum)
  multipleOf : (∃ v, own (.multipleOf v) ∧ b'.multipleOf = some v) ∨ ((∀ v, ¬ own (.multipleOf v)) ∧ b'.multipleOf = b.multipleOf)
  minProperties : (∃ v, own (.minProperties v) ∧ b'.minProperties = some v) ∨ ((∀ v, ¬ own (.minProperties v)) ∧ b'.minProperties = b.minProperties)
  maxProperties : (∃ v, own (.maxProperties v) ∧ b'.maxProperties = some v) ∨ ((∀ v, ¬ own (.maxProperties v)) ∧ b'.maxProperties = b.maxProperties)
  maxLength : (∃ v, own (.maxLength v) ∧ b'.maxLength = some v) ∨ ((∀ v, ¬ own (.maxLength v)) ∧ b'.maxLength = b.maxLength)
  minLength : (∃ v, own (.minLength v) ∧ b'.minLength = some v) ∨ ((∀ v, ¬ own (.minLength v)) ∧ b'.minLength = b.minLength)
  pattern : (∃ v, own (.pattern v) ∧ b'.pattern = v) ∨ ((∀ v, ¬ own (.pattern v)) ∧ b'.pattern = b.pattern)
  maxItems : (∃ v, own (.maxItems v) ∧ b'.maxItems = some v) ∨ ((∀ v, ¬ own (.maxItems v)) ∧ b'.maxItems = b.maxItems)
  minItems : (∃ v, own (.minItems v) ∧ b'.minItems = some v) ∨ ((∀ v, ¬ own (.minItems v)) ∧ b'.minItems = b.minItems)
  uniqueItems : (∃ v, own (.uniqueItems v) ∧ b'.uniqueItems = v) ∨ ((∀ v, ¬ own (.uniqueItems v)) ∧ b'.uniqueItems = b.uniqueItems)
  enum : (∃ v, own (.enum v) ∧ b'.enum = v.filterMap marshal) ∨ ((∀ v, ¬ own (.enum v)) ∧ b'.enum = b.enum)
  format : (∃ v, own (.format v) ∧ b'.format = v) ∨ ((∀ v, ¬ own (.format v)) ∧ b'.format = b.format)
  type : (∃ v, own (.type v) ∧ b'.type = v) ∨ ((∀ v, ¬ own (.type v)) ∧ b'.type = b.type)
  nullable : (own .nullable ∧ b'.nullable = true) ∨ (¬ own .nullable ∧ b'.nullable = b.nullable)
  intOrString : (own .intOrString ∧ b'.xIntOrString = true) ∨ (¬ own .intOrString ∧ b'.xIntOrString = b.xIntOrString)
  preserve : (own .preserveUnknownFields ∧ b'.xPreserveUnknownFields = some true) ∨ (¬ own .preserveUnknownFields ∧ b'.xPreserveUnknownFields = b.xPreserveUnknownFields)
  rules : ∀ r, r ∈ b'.xValidations ↔ r ∈ b.xValidations ∨ ∃ ru me ex re fp old, own (.validation ru me ex re fp old) ∧ r = ruleOf ru me ex re fp old
  required : b'.required = b.required
  ref : b'.ref = b.ref
  fits : ∀ m, own m → ∃ b, Compatible marshal b m

set_option maxHeartbeats 1000000 in
theorem applied_of_run {marshal : AnyVal → Option Raw} {own : Mark → Prop} {l : List Mark} (ho : ∀ m, m ∈ l ↔ own m) {b b' : Base} (h : runMarks marshal l b = some b') : Applied marshal own b b' := by
  have key : ∀ {α β : Type} (f : Base → α) (mk : β → Mark) (g : β → α) (un : Mark → Option β), (∀ v, un (mk v) = some v) → (∀ m v, un m = some v → m = mk v) →
      (∀ m b b', m.apply marshal b = some b' → f b' = ((un m).map g).getD (f b)) →
      (∃ v, own (mk v) ∧ f b' = g v) ∨ ((∀ v, ¬ own (mk v)) ∧ f b' = f b) := by
    intro α β f mk g un h1 h2 h3
    rcases run_key f (fun m => (un m).map g) h3 h with ⟨m, hm, e⟩ | ⟨hm, e⟩
    · cases hu : un m with
      | none => rw [hu] at e; cases e
      | some v =>
        rw [hu] at e
        rw [h2 m v hu] at hm
        exact .inl ⟨v, (ho _).1 hm, (Option.some.inj e).symm⟩
    · refine .inr ⟨fun v hv => ?_, e⟩
      have := hm _ ((ho _).2 hv)
      rw [h1] at this
      cases this
  have put : ∀ {m : Mark} {b b' : Base}, m.apply marshal b = some b' → b' = putKey b (target m) (written marshal b m) := apply_put
  refine
    { maximum := key (·.maximum) .maximum some (fun | .maximum v => some v | _ => none) (fun _ => rfl) ?_ ?_
      minimum := key (·.minimum) .minimum some (fun | .minimum v => some v | _ => none) (fun _ => rfl) ?_ ?_
      exclusiveMaximum := key (·.exclusiveMaximum) .exclusiveMaximum (fun x => x) (fun | .exclusiveMaximum v => some v | _ => none) (fun _ => rfl) ?_ ?_
      exclusiveMinimum := key (·.exclusiveMinimum) .exclusiveMinimum (fun x => x) (fun | .exclusiveMinimum v => some v | _ => none) (fun _ => rfl) ?_ ?_
      multipleOf := key (·.multipleOf) .multipleOf some (fun | .multipleOf v => some v | _ => none) (fun _ => rfl) ?_ ?_
      minProperties := key (·.minProperties) .minProperties some (fun | .minProperties v => some v | _ => none) (fun _ => rfl) ?_ ?_
      maxProperties := key (·.maxProperties) .maxProperties some (fun | .maxProperties v => some v | _ => none) (fun _ => rfl) ?_ ?_
      maxLength := key (·.maxLength) .maxLength some (fun | .maxLength v => some v | _ => none) (fun _ => rfl) ?_ ?_
      minLength := key (·.minLength) .minLength some (fun | .minLength v => some v | _ => none) (fun _ => rfl) ?_ ?_
      pattern := key (·.pattern) .pattern (fun x => x) (fun | .pattern v => some v | _ => none) (fun _ => rfl) ?_ ?_
      maxItems := key (·.maxItems) .maxItems some (fun | .maxItems v => some v | _ => none) (fun _ => rfl) ?_ ?_
      minItems := key (·.minItems) .minItems some (fun | .minItems v => some v | _ => none) (fun _ => rfl) ?_ ?_
      uniqueItems := key (·.uniqueItems) .uniqueItems (fun x => x) (fun | .uniqueItems v => some v | _ => none) (fun _ => rfl) ?_ ?_
      enum := key (·.enum) .enum (fun v => v.filterMap marshal) (fun | .enum v => some v | _ => none) (fun _ => rfl) ?_ ?_
      format := key (·.format) .format (fun x => x) (fun | .format v => some v | _ => none) (fun _ => rfl) ?_ ?_
      type := key (·.type) .type (fun x => x) (fun | .type v => some v | _ => none) (fun _ => rfl) ?_ ?_
      nullable := ?nullable
      intOrString := ?intOrString
      preserve := ?preserve
      rules := ?rules
      required := ?required
      ref := ?ref
      fits := fun m hm => run_fits h m ((ho m).2 hm) }
  case nullable =>
    have := key (·.nullable) (fun _ : Unit => .nullable) (fun _ => true) (fun | .nullable => some () | _ => none) (fun _ => rfl) (by intro m v; cases m <;> simp) (by
      intro m b b' hm; rw [put hm]; cases m <;> rfl)
    simpa using this
  case intOrString =>
    have := key (·.xIntOrString) (fun _ : Unit => .intOrString) (fun _ => true) (fun | .intOrString => some () | _ => none) (fun _ => rfl) (by intro m v; cases m <;> simp) (by
      intro m b b' hm; rw [put hm]; cases m <;> rfl)
    simpa using this
  case preserve =>
    have := key (·.xPreserveUnknownFields) (fun _ : Unit => .preserveUnknownFields) (fun _ => some true) (fun | .preserveUnknownFields => some () | _ => none) (fun _ => rfl) (by intro m v; cases m <;> simp) (by
      intro m b b' hm; rw [put hm]; cases m <;> rfl)
    simpa using this
  case rules => intro r; rw [run_rules h]; simp only [ho]
  case required =>
    have := key (·.required) (fun e : Empty => nomatch e) (fun e => nomatch e) (fun _ => none) (fun e => nomatch e) nofun (by intro m b b' hm; rw [put hm]; cases m <;> rfl)
    rcases this with ⟨e, -⟩ | this
    · exact nomatch e
    · exact this.2
  case ref =>
    have := key (·.ref) (fun e : Empty => nomatch e) (fun e => nomatch e) (fun _ => none) (fun e => nomatch e) nofun (by intro m b b' hm; rw [put hm]; cases m <;> rfl)
    rcases this with ⟨e, -⟩ | this
    · exact nomatch e
    · exact this.2
  all_goals first
    | (intro m b b' hm; rw [put hm]; cases m <;> rfl)
    | (intro m v; cases m <;> simp <;> (intro e; exact e))

/-- What a schema has from markers that it had before comes from the same markers. -/
structure Inh (own : Mark → Prop) (b : Base) : Prop where
  maximum : ∀ v, b.maximum = some v → own (.maximum v)
  minimum : ∀ v, b.minimum = some v → own (.minimum v)
  exclusiveMaximum : b.exclusiveMaximum = true → own (.exclusiveMaximum true)
  exclusiveMinimum : b.exclusiveMinimum = true → own (.exclusiveMinimum true)
  nullable : b.nullable = true → own .nullable

theorem Inh.applied {marshal : AnyVal → Option Raw} {own : Mark → Prop} {b b' : Base} (h : Inh own b) (ha : Applied marshal own b b') : Inh own b' where
  maximum v hv := by
    rcases ha.maximum with ⟨w, h1, h2⟩ | ⟨-, h2⟩
    · rw [h2] at hv; cases hv; exact h1
    · exact h.maximum v (h2 ▸ hv)
  minimum v hv := by
    rcases ha.minimum with ⟨w, h1, h2⟩ | ⟨-, h2⟩
    · rw [h2] at hv; cases hv; exact h1
    · exact h.minimum v (h2 ▸ hv)
  exclusiveMaximum hv := by
    rcases ha.exclusiveMaximum with ⟨w, h1, h2⟩ | ⟨-, h2⟩
    · rw [h2] at hv; rwa [hv] at h1
    · exact h.exclusiveMaximum (h2 ▸ hv)
  exclusiveMinimum hv := by
    rcases ha.exclusiveMinimum with ⟨w, h1, h2⟩ | ⟨-, h2⟩
    · rw [h2] at hv; rwa [hv] at h1
    · exact h.exclusiveMinimum (h2 ▸ hv)
  nullable hv := by
    rcases ha.nullable with ⟨h1, -⟩ | ⟨-, h2⟩
    · exact h1
    · exact h.nullable (h2 ▸ hv)

/-- A schema with the markers rejects what they forbid. -/
theorem applied_strict {M : Meaning} {marshal : AnyVal → Option Raw} {own : Mark → Prop} {b b' : Base} (ha : Applied marshal own b b') (hi : Inh own b) (ho : Once own) {j : Json}
    (hj : BaseOk M b' j) : ¬ Forbids M marshal own j := by
  intro hf
  have one : ∀ {α : Type} (mk : α → Mark), (∀ v w, mk v = mk w → v = w) → (∀ v w, target (mk v) = target (mk w)) →
      (∀ v, target (mk v) ∉ [Keyword.xValidations, .xListMapKeys, .default, .title, .example_]) → ∀ {v w}, own (mk v) → own (mk w) → v = w := by
    intro α mk h1 h2 h3 v w hv hw
    exact h1 _ _ (ho _ _ hv hw (h2 v w) (h3 v))
  cases hf with
  | mark m hm ht hc =>
    apply hc
    cases m with
    | type t => exact absurd rfl (ht t)
    | maximum v =>
      rcases ha.maximum with ⟨w, h1, h2⟩ | ⟨h1, -⟩
      · obtain rfl := one .maximum (by simp) (by simp [target]) (by simp [target]) hm h1
        intro q hq
        have := hj.maximum q v hq h2
        split at this
        · exact Rat.le_of_lt this
        · exact this
      · exact absurd hm (h1 v)
    | minimum v =>
      rcases ha.minimum with ⟨w, h1, h2⟩ | ⟨h1, -⟩
      · obtain rfl := one .minimum (by simp) (by simp [target]) (by simp [target]) hm h1
        intro q hq
        have := hj.minimum q v hq h2
        split at this
        · exact Rat.le_of_lt this
        · exact this
      · exact absurd hm (h1 v)
    | multipleOf v =>
      rcases ha.multipleOf with ⟨w, h1, h2⟩ | ⟨h1, -⟩
      · obtain rfl := one .multipleOf (by simp) (by simp [target]) (by simp [target]) hm h1
        exact fun q hq => hj.multipleOf q v hq h2
      · exact absurd hm (h1 v)
    | minProperties v =>
      rcases ha.minProperties with ⟨w, h1, h2⟩ | ⟨h1, -⟩
      · obtain rfl := one .minProperties (by simp) (by simp [target]) (by simp [target]) hm h1
        exact fun q hq => hj.minProperties q v hq h2
      · exact absurd hm (h1 v)
    | maxProperties v =>
      rcases ha.maxProperties with ⟨w, h1, h2⟩ | ⟨h1, -⟩
      · obtain rfl := one .maxProperties (by simp) (by simp [target]) (by simp [target]) hm h1
        exact fun q hq => hj.maxProperties q v hq h2
      · exact absurd hm (h1 v)
    | maxLength v =>
      rcases ha.maxLength with ⟨w, h1, h2⟩ | ⟨h1, -⟩
      · obtain rfl := one .maxLength (by simp) (by simp [target]) (by simp [target]) hm h1
        exact fun q hq => hj.maxLength q v hq h2
      · exact absurd hm (h1 v)
    | minLength v =>
      rcases ha.minLength with ⟨w, h1, h2⟩ | ⟨h1, -⟩
      · obtain rfl := one .minLength (by simp) (by simp [target]) (by simp [target]) hm h1
        exact fun q hq => hj.minLength q v hq h2
      · exact absurd hm (h1 v)
    | pattern v =>
      rcases ha.pattern with ⟨w, h1, h2⟩ | ⟨h1, -⟩
      · obtain rfl := one .pattern (by simp) (by simp [target]) (by simp [target]) hm h1
        intro s hs hne
        have := hj.pattern s hs (by rw [h2]; exact hne)
        rwa [h2] at this
      · exact absurd hm (h1 v)
    | maxItems v =>
      rcases ha.maxItems with ⟨w, h1, h2⟩ | ⟨h1, -⟩
      · obtain rfl := one .maxItems (by simp) (by simp [target]) (by simp [target]) hm h1
        exact fun q hq => hj.maxItems q v hq h2
      · exact absurd hm (h1 v)
    | minItems v =>
      rcases ha.minItems with ⟨w, h1, h2⟩ | ⟨h1, -⟩
      · obtain rfl := one .minItems (by simp) (by simp [target]) (by simp [target]) hm h1
        exact fun q hq => hj.minItems q v hq h2
      · exact absurd hm (h1 v)
    | uniqueItems v =>
      rcases ha.uniqueItems with ⟨w, h1, h2⟩ | ⟨h1, -⟩
      · obtain rfl := one .uniqueItems (by simp) (by simp [target]) (by simp [target]) hm h1
        exact fun l hl hv => hj.uniqueItems l hl (h2.trans hv)
      · exact absurd hm (h1 v)
    | enum v =>
      rcases ha.enum with ⟨w, h1, h2⟩ | ⟨h1, -⟩
      · obtain rfl := one .enum (by simp) (by simp [target]) (by simp [target]) hm h1
        obtain ⟨b0, hb0⟩ := ha.fits _ hm
        exact (enum_constraint hb0).1 (h2 ▸ hj.enum)
      · exact absurd hm (h1 v)
    | format v =>
      rcases ha.format with ⟨w, h1, h2⟩ | ⟨h1, -⟩
      · obtain rfl := one .format (by simp) (by simp [target]) (by simp [target]) hm h1
        exact h2 ▸ hj.format
      · exact absurd hm (h1 v)
    | intOrString =>
      rcases ha.intOrString with ⟨-, h2⟩ | ⟨h1, -⟩
      · exact hj.intOrString h2
      · exact absurd hm h1
    | validation ru me ex re fp old => exact hj.rules _ ((ha.rules _).2 (.inr ⟨ru, me, ex, re, fp, old, hm, rfl⟩))
    | _ => exact True.intro
  | type t hm hn hc =>
    rcases ha.type with ⟨w, h1, h2⟩ | ⟨h1, -⟩
    · obtain rfl := one .type (by simp) (by simp [target]) (by simp [target]) hm h1
      rcases hj.type with h | ⟨h3, h4⟩
      · exact hn (h2 ▸ h)
      · exact hc ⟨(hi.applied ha).nullable h3, h4⟩
    · exact h1 t hm
  | exclusiveMaximum v h1 h2 h3 =>
    rcases ha.maximum with ⟨w, h4, h5⟩ | ⟨h4, -⟩
    · obtain rfl := one .maximum (by simp) (by simp [target]) (by simp [target]) h1 h4
      rcases ha.exclusiveMaximum with ⟨x, h6, h7⟩ | ⟨h6, -⟩
      · obtain rfl := one .exclusiveMaximum (by simp) (by simp [target]) (by simp [target]) h2 h6
        have := hj.maximum v v h3 h5
        rw [h7] at this
        exact absurd this (Rat.lt_irrefl)
      · exact h6 _ h2
    · exact h4 _ h1
  | exclusiveMinimum v h1 h2 h3 =>
    rcases ha.minimum with ⟨w, h4, h5⟩ | ⟨h4, -⟩
    · obtain rfl := one .minimum (by simp) (by simp [target]) (by simp [target]) h1 h4
      rcases ha.exclusiveMinimum with ⟨x, h6, h7⟩ | ⟨h6, -⟩
      · obtain rfl := one .exclusiveMinimum (by simp) (by simp [target]) (by simp [target]) h2 h6
        have := hj.minimum v v h3 h5
        rw [h7] at this
        exact absurd this (Rat.lt_irrefl)
      · exact h6 _ h2
    · exact h4 _ h1

/-- A schema with the markers accepts what it accepted before and they do not forbid. -/
theorem applied_accepts {M : Meaning} {marshal : AnyVal → Option Raw} {own : Mark → Prop} {b b' : Base} (ha : Applied marshal own b b') (hi : Inh own b) {j : Json}
    (hj : BaseOk M b j) (hf : ¬ Forbids M marshal own j) : BaseOk M b' j := by
  have hc : ∀ m, own m → (∀ t, m ≠ .type t) → Constraint M marshal j m := fun m hm ht => Classical.byContradiction fun h => hf (.mark m hm ht h)
  have hi' := hi.applied ha
  constructor
  · rcases ha.type with ⟨t, h1, h2⟩ | ⟨-, h2⟩
    · by_cases ht : HasType t j
      · exact .inl (h2 ▸ ht)
      · have hn : own .nullable ∧ j = .null := Classical.byContradiction fun h => hf (.type t h1 ht h)
        rcases ha.nullable with ⟨-, h3⟩ | ⟨h3, -⟩
        · exact .inr ⟨h3, hn.2⟩
        · exact absurd hn.1 h3
    · rcases hj.type with h | ⟨h3, h4⟩
      · exact .inl (h2 ▸ h)
      · rcases ha.nullable with ⟨-, h5⟩ | ⟨-, h5⟩
        · exact .inr ⟨h5, h4⟩
        · exact .inr ⟨h5.trans h3, h4⟩
  · rcases ha.format with ⟨v, h1, h2⟩ | ⟨-, h2⟩
    · rw [h2]; exact hc _ h1 nofun
    · rw [h2]; exact hj.format
  · intro q m hq hm
    have h1 := hi'.maximum m hm
    have h2 : q ≤ m := hc _ h1 nofun q hq
    split
    · rename_i he
      refine (Rat.not_le).1 fun h3 => ?_
      have : q = m := Rat.le_antisymm h2 h3
      exact hf (.exclusiveMaximum m h1 (hi'.exclusiveMaximum he) (this ▸ hq))
    · exact h2
  · intro q m hq hm
    have h1 := hi'.minimum m hm
    have h2 : m ≤ q := hc _ h1 nofun q hq
    split
    · rename_i he
      refine (Rat.not_le).1 fun h3 => ?_
      have : q = m := Rat.le_antisymm h3 h2
      exact hf (.exclusiveMinimum m h1 (hi'.exclusiveMinimum he) (this ▸ hq))
    · exact h2
  · intro q m hq hm
    rcases ha.multipleOf with ⟨v, h1, h2⟩ | ⟨-, h2⟩
    · rw [h2] at hm; cases hm; exact hc _ h1 nofun q hq
    · exact hj.multipleOf q m hq (h2 ▸ hm)
  · intro q m hq hm
    rcases ha.maxLength with ⟨v, h1, h2⟩ | ⟨-, h2⟩
    · rw [h2] at hm; cases hm; exact hc _ h1 nofun q hq
    · exact hj.maxLength q m hq (h2 ▸ hm)
  · intro q m hq hm
    rcases ha.minLength with ⟨v, h1, h2⟩ | ⟨-, h2⟩
    · rw [h2] at hm; cases hm; exact hc _ h1 nofun q hq
    · exact hj.minLength q m hq (h2 ▸ hm)
  · rcases ha.pattern with ⟨v, h1, h2⟩ | ⟨-, h2⟩
    · rw [h2]; exact hc _ h1 nofun
    · rw [h2]; exact hj.pattern
  · intro q m hq hm
    rcases ha.maxItems with ⟨v, h1, h2⟩ | ⟨-, h2⟩
    · rw [h2] at hm; cases hm; exact hc _ h1 nofun q hq
    · exact hj.maxItems q m hq (h2 ▸ hm)
  · intro q m hq hm
    rcases ha.minItems with ⟨v, h1, h2⟩ | ⟨-, h2⟩
    · rw [h2] at hm; cases hm; exact hc _ h1 nofun q hq
    · exact hj.minItems q m hq (h2 ▸ hm)
  · rcases ha.uniqueItems with ⟨v, h1, h2⟩ | ⟨-, h2⟩
    · rw [h2]; exact hc _ h1 nofun
    · rw [h2]; exact hj.uniqueItems
  · intro q m hq hm
    rcases ha.maxProperties with ⟨v, h1, h2⟩ | ⟨-, h2⟩
    · rw [h2] at hm; cases hm; exact hc _ h1 nofun q hq
    · exact hj.maxProperties q m hq (h2 ▸ hm)
  · intro q m hq hm
    rcases ha.minProperties with ⟨v, h1, h2⟩ | ⟨-, h2⟩
    · rw [h2] at hm; cases hm; exact hc _ h1 nofun q hq
    · exact hj.minProperties q m hq (h2 ▸ hm)
  · rw [ha.required]; exact hj.required
  · rcases ha.enum with ⟨v, h1, h2⟩ | ⟨-, h2⟩
    · rw [h2]
      obtain ⟨b0, hb0⟩ := ha.fits _ h1
      exact (enum_constraint hb0).2 (hc _ h1 nofun)
    · rw [h2]; exact hj.enum
  · rcases ha.intOrString with ⟨h1, -⟩ | ⟨-, h2⟩
    · exact fun _ => hc _ h1 nofun
    · rw [h2]; exact hj.intOrString
  · intro r hr
    rcases (ha.rules r).1 hr with h | ⟨ru, me, ex, re, fp, old, h1, rfl⟩
    · exact hj.rules r h
    · exact hc _ h1 nofun

end Verif.Crd

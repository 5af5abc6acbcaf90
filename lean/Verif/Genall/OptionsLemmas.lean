import Verif.Genall.OptionsSpec
/-!
# Lemmas about the options
-/
namespace Verif.Genall
open Markers (Str Def Registry Target)
open Spec

variable {γ : Type}

theorem Spec.Addressed.split {name : Str} {tgt : Option Str} (h : Addressed name tgt) :
    ∃ rule gen, splitOutputRuleOption name = some (rule, gen) ∧ tgt = if gen = [] then none else some gen := by
  cases h with
  | @default a rule h1 h2 => exact ⟨rule, [], by rw [splitOutputRuleOption, Text.cut_append h1]; simp only [Text.cut_none.2 h2], by simp⟩
  | @unnamed a rule h1 =>
    refine ⟨rule, [], ?_, by simp⟩
    rw [splitOutputRuleOption, Text.cut_append h1]
    simp only [show Text.cut ':' (':' :: rule) = some ([], rule) from Text.cut_append (a := []) (by simp)]
  | @generator a gen rule h1 h2 h3 =>
    refine ⟨rule, gen, ?_, by rw [if_neg h3]⟩
    rw [splitOutputRuleOption, List.append_assoc, List.cons_append, Text.cut_append h1]
    simp only [Text.cut_append h2]

theorem addressed_split {name rule gen : Str} (h : splitOutputRuleOption name = some (rule, gen)) : Addressed name (if gen = [] then none else some gen) := by
  rw [splitOutputRuleOption] at h
  cases h1 : Text.cut ':' name with
  | none => rw [h1] at h; cases h
  | some p =>
    obtain ⟨a, rest⟩ := p
    rw [h1] at h
    obtain ⟨rfl, ha⟩ := Text.cut_some.1 h1
    simp only at h
    cases h2 : Text.cut ':' rest with
    | none =>
      rw [h2] at h
      cases h
      rw [if_pos rfl]
      exact .default ha (Text.cut_none.1 h2)
    | some q =>
      obtain ⟨g, r⟩ := q
      rw [h2] at h
      cases h
      obtain ⟨rfl, hg⟩ := Text.cut_some.1 h2
      by_cases he : gen = []
      · rw [if_pos he, he]; exact .unnamed ha
      · rw [if_neg he]
        have := Addressed.generator (rule := rule) ha hg he
        rwa [List.append_assoc, List.cons_append] at this

theorem Spec.Addressed.unique {name : Str} {t₁ t₂ : Option Str} (h₁ : Addressed name t₁) (h₂ : Addressed name t₂) : t₁ = t₂ := by
  obtain ⟨r, g, e, rfl⟩ := h₁.split
  obtain ⟨r', g', e', rfl⟩ := h₂.split
  rw [e] at e'; cases e'; rfl

theorem Spec.Addressed.ne {name gen : Str} (h : Addressed name (some gen)) : gen ≠ [] := by
  cases h; assumption

theorem Spec.Means.unique {reg : Registry (Parser γ)} {opt : Str} {m₁ m₂ : Str × Value γ} (h₁ : Means reg opt m₁) (h₂ : Means reg opt m₂) : m₁ = m₂ := by
  obtain ⟨raw, d, hr, hl, hn, hp⟩ := h₁
  obtain ⟨raw', d', hr', hl', hn', hp'⟩ := h₂
  have : raw = raw' := by
    rcases hr with ⟨rest, e1, e2⟩ | ⟨c, rest, e1, e2, e3⟩ <;> rcases hr' with ⟨rest', e1', e2'⟩ | ⟨c', rest', e1', e2', e3'⟩
    · rw [e2, e2']
    · rw [e1] at e1'; cases e1'; exact absurd rfl e2'
    · rw [e1] at e1'; cases e1'; exact absurd rfl e2
    · rw [e3, e3']
  subst this
  rw [hl] at hl'; cases hl'
  exact Prod.ext (hn.symm.trans hn') (Option.some.inj (hp.symm.trans hp'))

theorem All2_unique {α β : Type} {R : α → β → Prop} (hR : ∀ a b c, R a b → R a c → b = c) {l : List α} {m m' : List β} (h : All2 R l m) (h' : All2 R l m') : m = m' := by
  induction h generalizing m' with
  | nil => cases h'; rfl
  | cons hab _ ih => cases h' with | cons h1 h2 => rw [hR _ _ _ hab h1, ih h2]

theorem generators_append (a b : List (Str × Value γ)) : generators (a ++ b) = generators a ++ generators b := List.filterMap_append ..

theorem paths_append (a b : List (Str × Value γ)) : paths (a ++ b) = paths a ++ paths b := List.flatMap_append ..

theorem lastRule_concat (ms : List (Str × Value γ)) (m : Str × Value γ) (tgt : Option Str) (r : Rule) :
    LastRule (ms ++ [m]) tgt r ↔ IsRuleFor tgt r m ∨ ((∀ r', ¬ IsRuleFor tgt r' m) ∧ LastRule ms tgt r) := by
  constructor
  · rintro ⟨before, x, after, h1, h2, h3⟩
    rcases List.eq_nil_or_concat after with rfl | ⟨after', y, rfl⟩
    · obtain ⟨_, h⟩ := List.append_inj' h1 rfl
      cases h
      exact .inl h2
    · rw [List.concat_eq_append] at h1 h3
      rw [← List.cons_append, ← List.append_assoc] at h1
      obtain ⟨h, h'⟩ := List.append_inj' h1 rfl
      cases h'
      exact .inr ⟨h3 m (by simp), before, x, after', h, h2, fun m' hm' => h3 m' (by simp [hm'])⟩
  · rintro (h | ⟨h1, before, x, after, rfl, h2, h3⟩)
    · exact ⟨ms, m, [], rfl, h, by simp⟩
    · refine ⟨before, x, after ++ [m], by simp, h2, ?_⟩
      intro m' hm' r'
      rcases List.mem_append.1 hm' with hm' | hm'
      · exact h3 m' hm' r'
      · rw [List.mem_singleton.1 hm']; exact h1 r'

theorem lastRule_or_none (ms : List (Str × Value γ)) (tgt : Option Str) : (∃ r, LastRule ms tgt r) ∨ NoRule ms tgt := by
  rw [← List.reverse_reverse ms]
  induction ms.reverse with
  | nil => exact .inr (fun m hm => by cases hm)
  | cons m ms ih =>
    rw [List.reverse_cons]
    by_cases h : ∃ r, IsRuleFor tgt r m
    · obtain ⟨r, h⟩ := h
      exact .inl ⟨r, (lastRule_concat ..).2 (.inl h)⟩
    · have h' : ∀ r, ¬ IsRuleFor tgt r m := fun r hr => h ⟨r, hr⟩
      rcases ih with ⟨r, hr⟩ | hn
      · exact .inl ⟨r, (lastRule_concat ..).2 (.inr ⟨h', hr⟩)⟩
      · refine .inr fun m' hm' => ?_
        rcases List.mem_append.1 hm' with hm' | hm'
        · exact hn m' hm'
        · rw [List.mem_singleton.1 hm']; exact h'

theorem Spec.LastRule.not_none {ms : List (Str × Value γ)} {tgt : Option Str} {r : Rule} (h : LastRule ms tgt r) (hn : NoRule ms tgt) : False := by
  obtain ⟨b, m, a, rfl, h1, _⟩ := h
  exact hn m (by simp) r h1

/-- The invariant of the loop over the options. -/
structure Inv (s : Proto γ) (ms : List (Str × Value γ)) : Prop where
  gens : s.gens = (generators ms).map (·.2)
  paths : s.paths = Spec.paths ms
  default : ∀ r, s.default = some r ↔ LastRule ms none r
  rules : ∀ n, n ≠ [] → ∀ r, GoMap.get s.outputByGen n = some r ↔ LastRule ms (some n) r
  wf : GoMap.WF s.outputByGen
  ne : [] ∉ GoMap.keys s.outputByGen
  named : ∀ n i, GoMap.get s.gensByName n = some i ↔ ∃ g, (generators ms)[i]? = some (n, g)
  wf' : GoMap.WF s.gensByName
  once : ((generators ms).map (·.1)).Nodup
  kinds : ∀ m ∈ ms, m.2 ≠ .other
  addressed : ∀ m ∈ ms, ∀ r, m.2 = .rule r → ∃ tgt, Addressed m.1 tgt

theorem Inv.start : Inv ({} : Proto γ) [] where
  gens := rfl
  paths := rfl
  default r := ⟨fun h => (by cases h), fun ⟨b, m, a, h, _⟩ => (by simp at h)⟩
  rules n _ r := ⟨fun h => (by cases h), fun ⟨b, m, a, h, _⟩ => (by simp at h)⟩
  wf := by simp [GoMap.WF, GoMap.keys]
  ne := by simp [GoMap.keys]
  named n i := by simp [GoMap.get, generators]
  wf' := by simp [GoMap.WF, GoMap.keys]
  once := by simp [generators]
  kinds m hm := by cases hm
  addressed m hm := by cases hm

theorem generators_single (n : Str) (v : Value γ) : generators [(n, v)] = match v with
    | .generator g => [(n, g)]
    | _ => [] := by cases v <;> rfl

theorem paths_single (n : Str) (v : Value γ) : Spec.paths [(n, v)] = match v with
    | .paths ps => ps
    | _ => [] := by cases v <;> simp [Spec.paths]

theorem Inv.isSome {s : Proto γ} {ms : List (Str × Value γ)} (h : Inv s ms) (n : Str) : (GoMap.get s.gensByName n).isSome = true ↔ n ∈ (generators ms).map (·.1) := by
  constructor
  · intro hs
    obtain ⟨i, hi⟩ := Option.isSome_iff_exists.1 hs
    obtain ⟨g, hg⟩ := (h.named n i).1 hi
    exact List.mem_map.2 ⟨(n, g), List.mem_of_getElem? hg, rfl⟩
  · intro hm
    obtain ⟨⟨n', g⟩, hg, rfl⟩ := List.mem_map.1 hm
    obtain ⟨i, hi⟩ := List.mem_iff_getElem?.1 hg
    exact Option.isSome_iff_exists.2 ⟨i, (h.named n' i).2 ⟨g, hi⟩⟩

theorem withPlus_some {opt raw : Str} (h : withPlus opt = some raw) :
    (∃ rest, opt = '+' :: rest ∧ raw = opt) ∨ (∃ c rest, opt = c :: rest ∧ c ≠ '+' ∧ raw = '+' :: opt) := by
  cases opt with
  | nil => cases h
  | cons c cs =>
    rw [withPlus] at h
    split at h
    · rename_i hc; cases h; exact .inr ⟨c, cs, rfl, hc, rfl⟩
    · rename_i hc; cases h
      rw [Decidable.not_not] at hc
      subst hc
      exact .inl ⟨cs, rfl, rfl⟩

theorem withPlus_of {opt raw : Str} (h : (∃ rest, opt = '+' :: rest ∧ raw = opt) ∨ (∃ c rest, opt = c :: rest ∧ c ≠ '+' ∧ raw = '+' :: opt)) : withPlus opt = some raw := by
  rcases h with ⟨rest, rfl, rfl⟩ | ⟨c, rest, rfl, hc, rfl⟩
  · simp [withPlus]
  · simp [withPlus, hc]

theorem withPlus_tail {opt raw : Str} (h : withPlus opt = some raw) : raw = '+' :: raw.tail ∧ (opt = raw.tail ∨ opt = '+' :: raw.tail) := by
  rcases withPlus_some h with ⟨rest, rfl, rfl⟩ | ⟨c, rest, rfl, hc, rfl⟩
  · exact ⟨rfl, .inr rfl⟩
  · exact ⟨rfl, .inl rfl⟩

/-- A step that succeeds: the option means something. -/
theorem optionStep_ok {reg : Registry (Parser γ)} {s s' : Proto γ} {ms : List (Str × Value γ)} (hi : Inv s ms) {opt : Str} (h : optionStep reg s opt = .ok s') :
    ∃ m, Means reg opt m ∧ Inv s' (ms ++ [m]) := by
  rw [optionStep] at h
  cases hw : withPlus opt with
  | none => rw [hw] at h; cases h
  | some raw =>
    rw [hw] at h
    simp only at h
    cases hl : reg.lookup raw .package with
    | none => rw [hl] at h; cases h
    | some d =>
      rw [hl] at h
      simp only at h
      cases hp : d.payload raw with
      | none => rw [hp] at h; cases h
      | some v =>
        rw [hp] at h
        refine ⟨(d.name, v), ⟨raw, d, withPlus_some hw, hl, rfl, hp⟩, ?_⟩
        cases v with
        | generator g =>
          simp only at h
          split at h
          · cases h
          · rename_i hn
            cases h
            rw [hi.isSome] at hn
            have hlen : s.gens.length = (generators ms).length := by rw [hi.gens, List.length_map]
            have hno : ∀ tgt r, ¬ IsRuleFor tgt r (d.name, Value.generator g) := fun tgt r hr => by cases hr.1
            exact {
              gens := by simp [generators_append, generators_single, hi.gens]
              paths := by simp [paths_append, paths_single, hi.paths]
              default := fun r => by rw [lastRule_concat]; simp [hno, hi.default]
              rules := fun n hn r => by rw [lastRule_concat]; simp [hno, hi.rules n hn]
              wf := hi.wf
              ne := hi.ne
              named := by
                intro n i
                rw [GoMap.get_put, generators_append, generators_single]
                show _ ↔ ∃ g', (generators ms ++ [(d.name, g)])[i]? = some (n, g')
                by_cases hd : n = d.name
                · subst hd
                  rw [if_pos rfl]
                  constructor
                  · intro h; cases h; rw [hlen]; exact ⟨g, by simp⟩
                  · rintro ⟨g', hg⟩
                    by_cases hlt : i < (generators ms).length
                    · rw [List.getElem?_append_left hlt] at hg
                      exact absurd (List.mem_map.2 ⟨_, List.mem_of_getElem? hg, rfl⟩) hn
                    · rw [List.getElem?_append_right (by omega)] at hg
                      have hlt := (List.getElem?_eq_some_iff.1 hg).1
                      simp at hlt
                      rw [hlen]; congr 1; omega
                · rw [if_neg hd, hi.named]
                  constructor
                  · rintro ⟨g', hg⟩
                    exact ⟨g', by rw [List.getElem?_append_left (List.getElem?_eq_some_iff.1 hg).1]; exact hg⟩
                  · rintro ⟨g', hg⟩
                    by_cases hlt : i < (generators ms).length
                    · rw [List.getElem?_append_left hlt] at hg; exact ⟨g', hg⟩
                    · rw [List.getElem?_append_right (by omega)] at hg
                      have := List.mem_of_getElem? hg
                      simp at this
                      exact absurd this.1 hd
              wf' := GoMap.put_wf hi.wf' _ _
              once := by
                rw [generators_append, generators_single, List.map_append, List.nodup_append]
                refine ⟨hi.once, by simp, ?_⟩
                intro a ha b hb
                simp at hb
                rintro rfl
                subst hb
                exact hn ha
              kinds := by
                intro m hm
                rcases List.mem_append.1 hm with hm | hm
                · exact hi.kinds m hm
                · rw [List.mem_singleton.1 hm]; simp
              addressed := by
                intro m hm r hr
                rcases List.mem_append.1 hm with hm | hm
                · exact hi.addressed m hm r hr
                · rw [List.mem_singleton.1 hm] at hr; cases hr }
        | rule r =>
          simp only at h
          cases hs : splitOutputRuleOption d.name with
          | none => rw [hs] at h; cases h
          | some p =>
            obtain ⟨rn, gn⟩ := p
            rw [hs] at h
            simp only at h
            have haddr := addressed_split hs
            have hbase : (generators (ms ++ [(d.name, Value.rule r)])) = generators ms ∧ Spec.paths (ms ++ [(d.name, Value.rule r)]) = Spec.paths ms := by
              constructor
              · rw [generators_append, generators_single]; simp
              · rw [paths_append, paths_single]; simp
            have hkinds : ∀ m ∈ ms ++ [(d.name, Value.rule r)], m.2 ≠ .other := by
              intro m hm
              rcases List.mem_append.1 hm with hm | hm
              · exact hi.kinds m hm
              · rw [List.mem_singleton.1 hm]; simp
            have haddressed : ∀ m ∈ ms ++ [(d.name, Value.rule r)], ∀ r, m.2 = .rule r → ∃ tgt, Addressed m.1 tgt := by
              intro m hm r hr
              rcases List.mem_append.1 hm with hm | hm
              · exact hi.addressed m hm r hr
              · rw [List.mem_singleton.1 hm]; exact ⟨_, haddr⟩
            have hrf : ∀ tgt r', IsRuleFor tgt r' (d.name, (Value.rule r : Value γ)) ↔ r' = r ∧ tgt = (if gn = [] then none else some gn) := by
              intro tgt r'
              constructor
              · rintro ⟨h1, h2⟩
                simp only [Value.rule.injEq] at h1
                exact ⟨h1.symm, h2.unique haddr⟩
              · rintro ⟨rfl, rfl⟩
                exact ⟨rfl, haddr⟩
            split at h
            · rename_i hg
              cases h
              simp only [hg, if_true] at hrf
              exact {
                gens := by rw [hbase.1]; exact hi.gens
                paths := by rw [hbase.2]; exact hi.paths
                default := fun r' => by
                  rw [lastRule_concat]
                  simp only [hrf, and_true, forall_eq, not_true_eq_false]
                  simp [eq_comm]
                rules := fun n hn r' => by rw [lastRule_concat]; simp [hrf, hi.rules n hn]
                wf := hi.wf
                ne := hi.ne
                named := fun n i => by rw [hbase.1]; exact hi.named n i
                wf' := hi.wf'
                once := by rw [hbase.1]; exact hi.once
                kinds := hkinds
                addressed := haddressed }
            · rename_i hg
              cases h
              simp only [hg, if_false] at hrf
              exact {
                gens := by rw [hbase.1]; exact hi.gens
                paths := by rw [hbase.2]; exact hi.paths
                default := fun r' => by rw [lastRule_concat]; simp [hrf, hi.default]
                rules := fun n hn r' => by
                  rw [lastRule_concat, GoMap.get_put]
                  by_cases he : n = gn
                  · subst he
                    rw [if_pos rfl]
                    simp only [hrf, and_true]
                    constructor
                    · intro h; cases h; exact .inl rfl
                    · rintro (rfl | ⟨h, _⟩)
                      · rfl
                      · exact absurd rfl (h r)
                  · rw [if_neg he, hi.rules n hn]
                    simp [hrf, he]
                wf := GoMap.put_wf hi.wf _ _
                ne := by
                  rw [GoMap.mem_keys_put]
                  rintro (h | h)
                  · exact hg h.symm
                  · exact hi.ne h
                named := fun n i => by rw [hbase.1]; exact hi.named n i
                wf' := hi.wf'
                once := by rw [hbase.1]; exact hi.once
                kinds := hkinds
                addressed := haddressed }
        | paths ps =>
          cases h
          have hno : ∀ tgt r, ¬ IsRuleFor tgt r (d.name, (Value.paths ps : Value γ)) := fun tgt r hr => by cases hr.1
          have hb : generators (ms ++ [(d.name, Value.paths ps)]) = generators ms := by rw [generators_append, generators_single]; simp
          exact {
            gens := by rw [hb]; exact hi.gens
            paths := by simp [paths_append, paths_single, hi.paths]
            default := fun r => by rw [lastRule_concat]; simp [hno, hi.default]
            rules := fun n hn r => by rw [lastRule_concat]; simp [hno, hi.rules n hn]
            wf := hi.wf
            ne := hi.ne
            named := fun n i => by rw [hb]; exact hi.named n i
            wf' := hi.wf'
            once := by rw [hb]; exact hi.once
            kinds := by
              intro m hm
              rcases List.mem_append.1 hm with hm | hm
              · exact hi.kinds m hm
              · rw [List.mem_singleton.1 hm]; simp
            addressed := by
              intro m hm r hr
              rcases List.mem_append.1 hm with hm | hm
              · exact hi.addressed m hm r hr
              · rw [List.mem_singleton.1 hm] at hr; cases hr }
        | other => cases h

end Verif.Genall

import Verif.Genall.OptionsLemmas
import Verif.Markers.RegistryTheorems
/-!
# The options are interpreted completely (C34); the rule of a generator (C36)
-/
namespace Verif.Genall
open Markers (Str Def Registry Target)
open Spec

variable {γ : Type}

theorem optionStep_means {reg : Registry (Parser γ)} {s : Proto γ} {ms : List (Str × Value γ)} (hi : Inv s ms) {opt : Str} {m : Str × Value γ} (hm : Means reg opt m)
    (hk : m.2 ≠ .other) (ha : ∀ r, m.2 = .rule r → ∃ tgt, Addressed m.1 tgt) (hn : ∀ g, m.2 = .generator g → m.1 ∉ (generators ms).map (·.1)) :
    ∃ s', optionStep reg s opt = .ok s' := by
  obtain ⟨raw, d, hr, hl, he, hp⟩ := hm
  obtain ⟨n, v⟩ := m
  simp only at he hp hk ha hn
  subst he
  rw [optionStep, withPlus_of hr]
  simp only [hl, hp]
  cases v with
  | generator g =>
    have := hn g rfl
    rw [← hi.isSome] at this
    simp only [this]
    exact ⟨_, rfl⟩
  | rule r =>
    obtain ⟨tgt, ht⟩ := ha r rfl
    obtain ⟨rn, gn, hs, _⟩ := ht.split
    simp only [hs]
    split <;> exact ⟨_, rfl⟩
  | paths ps => exact ⟨_, rfl⟩
  | other => exact absurd rfl hk

theorem optionLoop_ok {reg : Registry (Parser γ)} {opts : List Str} : ∀ {s s' : Proto γ} {pre : List (Str × Value γ)}, Inv s pre → optionLoop reg s opts = .ok s' →
    ∃ ms, All2 (Means reg) opts ms ∧ Inv s' (pre ++ ms) := by
  induction opts with
  | nil =>
    intro s s' pre hi h
    rw [optionLoop] at h
    cases h
    exact ⟨[], .nil, by simpa using hi⟩
  | cons opt opts ih =>
    intro s s' pre hi h
    rw [optionLoop] at h
    cases hs : optionStep reg s opt with
    | err e => rw [hs] at h; cases h
    | panic => rw [hs] at h; cases h
    | ok s1 =>
      rw [hs] at h
      obtain ⟨m, hm, hi1⟩ := optionStep_ok hi hs
      obtain ⟨ms, h1, h2⟩ := ih hi1 h
      exact ⟨m :: ms, .cons hm h1, by rw [List.append_assoc] at h2; exact h2⟩

theorem optionLoop_means {reg : Registry (Parser γ)} {opts : List Str} {ms : List (Str × Value γ)} (hm : All2 (Means reg) opts ms) : ∀ {s : Proto γ} {pre : List (Str × Value γ)}, Inv s pre →
    Acceptable (pre ++ ms) → ∃ s', optionLoop reg s opts = .ok s' := by
  induction hm with
  | nil => intro s pre hi ha; exact ⟨s, rfl⟩
  | @cons opt m opts ms h1 h2 ih =>
    intro s pre hi ha
    obtain ⟨s1, hs⟩ := optionStep_means hi h1 (ha.kinds m (by simp)) (fun r hr => by obtain ⟨tgt, h, _⟩ := ha.rules m (by simp) r hr; exact ⟨tgt, h⟩) (by
      intro g hg hmem
      have := ha.once
      rw [show pre ++ m :: ms = pre ++ [m] ++ ms by simp, generators_append, generators_append, List.map_append, List.map_append, List.nodup_append] at this
      have := this.1
      rw [List.nodup_append] at this
      exact this.2.2 m.1 hmem m.1 (by
        obtain ⟨n, v⟩ := m
        simp only at hg
        subst hg
        rw [generators_single]; simp) rfl)
    obtain ⟨m', hm', hi1⟩ := optionStep_ok hi hs
    obtain rfl := hm'.unique h1
    obtain ⟨s', hs'⟩ := ih hi1 (by simpa using ha)
    exact ⟨s', by rw [optionLoop, hs]; exact hs'⟩

theorem associate_ok {gensByName : List (Str × Nat)} (hinj : ∀ n n' i, GoMap.get gensByName n = some i → GoMap.get gensByName n' = some i → n = n') :
    ∀ (l : List (Str × Rule)) (byGen : List (Nat × Rule)) (hl : (l.map (·.1)).Nodup), GoMap.WF byGen →
      (∀ e ∈ l, ∃ i, GoMap.get gensByName e.1 = some i) →
      ∃ res, associate gensByName l byGen = .ok res ∧ GoMap.WF res ∧
        ∀ i r, GoMap.get res i = some r ↔ (∃ n, (n, r) ∈ l ∧ GoMap.get gensByName n = some i) ∨ ((∀ n r', (n, r') ∈ l → GoMap.get gensByName n ≠ some i) ∧ GoMap.get byGen i = some r) := by
  intro l
  induction l with
  | nil => intro byGen _ hw _; exact ⟨byGen, rfl, hw, fun i r => by simp⟩
  | cons e l ih =>
    obtain ⟨n, r⟩ := e
    intro byGen hl hw hk
    obtain ⟨i, hi⟩ := hk (n, r) (by simp)
    simp only [List.map_cons, List.nodup_cons] at hl
    obtain ⟨res, h1, h1', h2⟩ := ih (GoMap.put byGen i r) hl.2 (GoMap.put_wf hw _ _) (fun e he => hk e (by simp [he]))
    refine ⟨res, by rw [associate, hi]; exact h1, h1', ?_⟩
    intro j r'
    rw [h2]
    constructor
    · rintro (⟨n', h3, h4⟩ | ⟨h3, h4⟩)
      · exact .inl ⟨n', by simp [h3], h4⟩
      · rw [GoMap.get_put] at h4
        split at h4
        · rename_i hj
          subst hj
          cases h4
          exact .inl ⟨n, by simp, hi⟩
        · rename_i hj
          refine .inr ⟨?_, h4⟩
          intro n' r'' hm
          rcases List.mem_cons.1 hm with hm | hm
          · cases hm
            rw [hi]
            exact fun h => hj (Option.some.inj h).symm
          · exact h3 n' r'' hm
    · rintro (⟨n', h3, h4⟩ | ⟨h3, h4⟩)
      · rcases List.mem_cons.1 h3 with h3 | h3
        · cases h3
          rw [hi] at h4
          cases h4
          refine .inr ⟨?_, by rw [GoMap.get_put, if_pos rfl]⟩
          intro n'' r'' hm hg
          exact hl.1 (List.mem_map.2 ⟨_, hm, hinj _ _ _ hg hi⟩)
        · exact .inl ⟨n', h3, h4⟩
      · refine .inr ⟨fun n' r'' hm => h3 n' r'' (by simp [hm]), ?_⟩
        rw [GoMap.get_put, if_neg, h4]
        intro hj
        exact h3 n r (by simp) (hj ▸ hi)

theorem associate_err {gensByName : List (Str × Nat)} : ∀ (l : List (Str × Rule)) (byGen : List (Nat × Rule)) (e : OptErr), associate gensByName l byGen = .err e →
      ∃ n r, e = .notInvoked n ∧ (n, r) ∈ l ∧ GoMap.get gensByName n = none := by
  intro l
  induction l with
  | nil => intro byGen e h; cases h
  | cons x l ih =>
    obtain ⟨n, r⟩ := x
    intro byGen e h
    rw [associate] at h
    cases hg : GoMap.get gensByName n with
    | none => rw [hg] at h; cases h; exact ⟨n, r, rfl, by simp, hg⟩
    | some i =>
      rw [hg] at h
      obtain ⟨n', r', h1, h2, h3⟩ := ih _ _ h
      exact ⟨n', r', h1, by simp [h2], h3⟩

theorem associate_known {gensByName : List (Str × Nat)} : ∀ (l : List (Str × Rule)) (byGen res : List (Nat × Rule)), associate gensByName l byGen = .ok res →
      ∀ e ∈ l, ∃ i, GoMap.get gensByName e.1 = some i := by
  intro l
  induction l with
  | nil => intro byGen res h e he; cases he
  | cons x l ih =>
    obtain ⟨n, r⟩ := x
    intro byGen res h e he
    rw [associate] at h
    cases hg : GoMap.get gensByName n with
    | none => rw [hg] at h; cases h
    | some i =>
      rw [hg] at h
      rcases List.mem_cons.1 he with rfl | he
      · exact ⟨i, hg⟩
      · exact ih _ _ h e he

theorem associate_no_panic {gensByName : List (Str × Nat)} : ∀ (l : List (Str × Rule)) (byGen : List (Nat × Rule)), associate gensByName l byGen ≠ .panic := by
  intro l
  induction l with
  | nil => intro byGen h; cases h
  | cons x l ih =>
    obtain ⟨n, r⟩ := x
    intro byGen h
    rw [associate] at h
    cases hg : GoMap.get gensByName n with
    | none => rw [hg] at h; cases h
    | some i => rw [hg] at h; exact ih _ h

theorem Inv.inj {s : Proto γ} {ms : List (Str × Value γ)} (hi : Inv s ms) (n n' : Str) (i : Nat) (h : GoMap.get s.gensByName n = some i) (h' : GoMap.get s.gensByName n' = some i) : n = n' := by
  obtain ⟨g, hg⟩ := (hi.named n i).1 h
  obtain ⟨g', hg'⟩ := (hi.named n' i).1 h'
  rw [hg] at hg'
  cases hg'
  rfl

/-- The rules for generators that have been collected are for the last rules. -/
theorem Inv.rule_mem {s : Proto γ} {ms : List (Str × Value γ)} (hi : Inv s ms) (n : Str) (r : Rule) : (n, r) ∈ s.outputByGen ↔ n ≠ [] ∧ LastRule ms (some n) r := by
  constructor
  · intro h
    have hn : n ≠ [] := by
      rintro rfl
      exact hi.ne (GoMap.mem_keys.2 ⟨r, h⟩)
    exact ⟨hn, (hi.rules n hn r).1 ((GoMap.get_eq_some hi.wf).2 h)⟩
  · rintro ⟨hn, h⟩
    exact (GoMap.get_eq_some hi.wf).1 ((hi.rules n hn r).2 h)

/-- **C34** (accepted).  The options are accepted exactly if each of them means something, and they fit together: in particular, an option that is not known, or that cannot be parsed, or is neither a
generator nor an output rule nor paths, or is a generator for the second time, or is an output rule for a generator that is not run, is never passed over.  The order in which maps are visited does not
matter. -/
theorem C34_accepted (reg : Registry (Parser γ)) (σ : Sched) (opts : List Str) :
    (∃ rt, protoFromOptions reg σ opts = .ok rt) ↔ ∃ ms, All2 (Means reg) opts ms ∧ Acceptable ms := by
  constructor
  · rintro ⟨rt, h⟩
    rw [protoFromOptions] at h
    cases hl : optionLoop reg {} opts with
    | err e => rw [hl] at h; cases h
    | panic => rw [hl] at h; cases h
    | ok s =>
      rw [hl] at h
      obtain ⟨ms, h1, hi⟩ := optionLoop_ok Inv.start hl
      rw [List.nil_append] at hi
      refine ⟨ms, h1, hi.once, hi.kinds, ?_⟩
      simp only at h
      cases ha : associate s.gensByName (σ.order 0 s.outputByGen) [] with
      | err e => rw [ha] at h; cases h
      | panic => rw [ha] at h; cases h
      | ok byGen =>
        intro m hm r hr
        obtain ⟨tgt, ht⟩ := hi.addressed m hm r hr
        refine ⟨tgt, ht, ?_⟩
        rintro gen rfl
        have hgen := ht.ne
        rcases lastRule_or_none ms (some gen) with ⟨r', hr'⟩ | hno
        · obtain ⟨i, hi'⟩ := associate_known _ _ _ ha (gen, r') ((σ.mem_order _ _ _).2 ((hi.rule_mem gen r').2 ⟨hgen, hr'⟩))
          exact (hi.isSome gen).1 (by rw [hi']; rfl)
        · exact absurd ⟨hr, ht⟩ (hno m hm r)
  · rintro ⟨ms, h1, ha⟩
    obtain ⟨s, hs⟩ := optionLoop_means h1 Inv.start (by simpa using ha)
    obtain ⟨ms', h1', hi⟩ := optionLoop_ok Inv.start hs
    rw [List.nil_append] at hi
    obtain rfl := All2_unique (R := Means reg) (fun _ _ _ h h' => Spec.Means.unique h h') h1 h1'
    have hnd : ((σ.order 0 s.outputByGen).map (·.1)).Nodup := (((σ.perm 0 s.outputByGen).map Prod.fst).nodup_iff).2 hi.wf
    obtain ⟨res, h2, _⟩ := associate_ok hi.inj (σ.order 0 s.outputByGen) [] hnd (by simp [GoMap.WF, GoMap.keys]) (by
      rintro ⟨n, r⟩ he
      rw [σ.mem_order, hi.rule_mem] at he
      obtain ⟨hn, b, m, a, rfl, ⟨hm1, hm2⟩, _⟩ := he
      obtain ⟨tgt, ht, hk⟩ := ha.rules m (by simp) r hm1
      have := hk n (ht.unique hm2)
      exact Option.isSome_iff_exists.1 ((hi.isSome n).2 this))
    exact ⟨{ paths := s.paths, generators := s.gens, rules := { default := s.default, byGenerator := res }, generatorsByName := s.gensByName }, by rw [protoFromOptions, hs]; simp only [h2]⟩

/-- **C34** (result).  When the options are accepted: the paths are those of all options, in order; the generators are run in the order in which they are given; the default output rule is the last that
is given, and the output rule of a generator is the last that is given for its name. -/
theorem C34_result {reg : Registry (Parser γ)} {σ : Sched} {opts : List Str} {ms : List (Str × Value γ)} {rt : ProtoRuntime γ} (h : protoFromOptions reg σ opts = .ok rt)
    (hm : All2 (Means reg) opts ms) :
    rt.paths = paths ms ∧ rt.generators = (generators ms).map (·.2) ∧ (∀ r, rt.rules.default = some r ↔ LastRule ms none r) ∧
    (∀ i n g, (generators ms)[i]? = some (n, g) → ∀ r, GoMap.get rt.rules.byGenerator i = some r ↔ LastRule ms (some n) r) ∧
    (∀ n i, GoMap.get rt.generatorsByName n = some i ↔ ∃ g, (generators ms)[i]? = some (n, g)) ∧ GoMap.WF rt.rules.byGenerator ∧ GoMap.WF rt.generatorsByName := by
  rw [protoFromOptions] at h
  cases hl : optionLoop reg {} opts with
  | err e => rw [hl] at h; cases h
  | panic => rw [hl] at h; cases h
  | ok s =>
    rw [hl] at h
    obtain ⟨ms', h1, hi⟩ := optionLoop_ok Inv.start hl
    rw [List.nil_append] at hi
    obtain rfl := All2_unique (R := Means reg) (fun _ _ _ h h' => Spec.Means.unique h h') hm h1
    simp only at h
    cases ha : associate s.gensByName (σ.order 0 s.outputByGen) [] with
    | err e => rw [ha] at h; cases h
    | panic => rw [ha] at h; cases h
    | ok byGen =>
      rw [ha] at h
      cases h
      have hnd : ((σ.order 0 s.outputByGen).map (·.1)).Nodup := (((σ.perm 0 s.outputByGen).map Prod.fst).nodup_iff).2 hi.wf
      obtain ⟨res, h2, hw, h3⟩ := associate_ok hi.inj (σ.order 0 s.outputByGen) [] hnd (by simp [GoMap.WF, GoMap.keys]) (associate_known _ _ _ ha)
      rw [ha] at h2
      cases h2
      refine ⟨hi.paths, hi.gens, hi.default, ?_, hi.named, hw, hi.wf'⟩
      intro i n g hg r
      rw [h3]
      have hn := (hi.named n i).2 ⟨g, hg⟩
      constructor
      · rintro (⟨n', h4, h5⟩ | ⟨_, h4⟩)
        · rw [σ.mem_order, hi.rule_mem] at h4
          rw [hi.inj n n' i hn h5]
          exact h4.2
        · cases h4
      · intro hr
        have hne : n ≠ [] := by
          obtain ⟨b, m, a, _, ⟨_, ht⟩, _⟩ := hr
          exact ht.ne
        exact .inl ⟨n, by rw [σ.mem_order, hi.rule_mem]; exact ⟨hne, hr⟩, hn⟩

theorem optionStep_err {reg : Registry (Parser γ)} {s : Proto γ} {opts : List Str} {ms : List (Str × Value γ)} (hm : All2 (Means reg) opts ms) (hi : Inv s ms) {opt : Str} {rest : List Str} {e : OptErr}
    (h : optionStep reg s opt = .err e) : Blamed reg (opts ++ opt :: rest) e := by
  rw [optionStep] at h
  cases hw : withPlus opt with
  | none => rw [hw] at h; cases h
  | some raw =>
    rw [hw] at h
    obtain ⟨hr, ho⟩ := withPlus_tail hw
    simp only at h
    cases hl : reg.lookup raw .package with
    | none => rw [hl] at h; cases h; exact ⟨opt, by simp, ho, hr ▸ hl⟩
    | some d =>
      rw [hl] at h
      simp only at h
      cases hp : d.payload raw with
      | none => rw [hp] at h; cases h; exact ⟨opt, by simp, ho, d, hr ▸ hl, hr ▸ hp⟩
      | some v =>
        rw [hp] at h
        have hmeans : Means reg opt (d.name, v) := ⟨raw, d, withPlus_some hw, hl, rfl, hp⟩
        cases v with
        | generator g =>
          simp only at h
          split at h
          · rename_i hs
            cases h
            rw [hi.isSome] at hs
            obtain ⟨⟨n, g'⟩, hg, hn⟩ := List.mem_map.1 hs
            simp only at hn
            subst hn
            obtain ⟨⟨n', v'⟩, hv, hve⟩ := List.mem_filterMap.1 hg
            cases v' <;> simp at hve
            obtain ⟨rfl, rfl⟩ := hve
            obtain ⟨a, ha, haM⟩ := hm.exists_left hv
            obtain ⟨o₁, o₂, rfl⟩ := List.append_of_mem ha
            exact ⟨o₁, o₂, rest, a, opt, _, g, by simp, haM, hmeans⟩
          · cases h
        | rule r =>
          simp only at h
          cases hs : splitOutputRuleOption d.name with
          | none => rw [hs] at h; cases h
          | some p => rw [hs] at h; simp only at h; split at h <;> cases h
        | paths ps => cases h
        | other => cases h; exact ⟨opt, by simp, hmeans⟩

theorem optionLoop_err {reg : Registry (Parser γ)} {opts : List Str} : ∀ {s : Proto γ} {before : List Str} {pre : List (Str × Value γ)} {e : OptErr}, All2 (Means reg) before pre → Inv s pre →
    optionLoop reg s opts = .err e → Blamed reg (before ++ opts) e := by
  induction opts with
  | nil => intro s before pre e _ _ h; cases h
  | cons opt opts ih =>
    intro s before pre e hb hi h
    rw [optionLoop] at h
    cases hs : optionStep reg s opt with
    | err e' => rw [hs] at h; cases h; exact optionStep_err hb hi hs
    | panic => rw [hs] at h; cases h
    | ok s1 =>
      rw [hs] at h
      obtain ⟨m, hm, hi1⟩ := optionStep_ok hi hs
      have := ih (hb.append (.cons hm .nil)) hi1 h
      rwa [List.append_assoc] at this

/-- **C34** (errors).  What the error says is true of the options. -/
theorem C34_error {reg : Registry (Parser γ)} {σ : Sched} {opts : List Str} {e : OptErr} (h : protoFromOptions reg σ opts = .err e) : Blamed reg opts e := by
  rw [protoFromOptions] at h
  cases hl : optionLoop reg {} opts with
  | err e' => rw [hl] at h; cases h; exact optionLoop_err (before := []) .nil Inv.start hl
  | panic => rw [hl] at h; cases h
  | ok s =>
    rw [hl] at h
    obtain ⟨ms, h1, hi⟩ := optionLoop_ok Inv.start hl
    rw [List.nil_append] at hi
    simp only at h
    cases ha : associate s.gensByName (σ.order 0 s.outputByGen) [] with
    | ok byGen => rw [ha] at h; cases h
    | panic => rw [ha] at h; cases h
    | err e' =>
      rw [ha] at h
      cases h
      obtain ⟨n, r, rfl, hm, hg⟩ := associate_err _ _ _ ha
      rw [σ.mem_order, hi.rule_mem] at hm
      obtain ⟨hne, b, m, a, rfl, ⟨hm1, hm2⟩, _⟩ := hm
      obtain ⟨opt, ho, hM⟩ := h1.exists_left (b := m) (by simp)
      refine ⟨⟨opt, ho, m.1, r, by rw [← hm1]; exact hM, hm2⟩, ?_⟩
      intro opt' ho' g hM'
      obtain ⟨m', hm', hM''⟩ := h1.exists_right ho'
      obtain rfl := hM'.unique hM''
      have : n ∈ (generators (b ++ m :: a)).map (·.1) := List.mem_map.2 ⟨(n, g), List.mem_filterMap.2 ⟨_, hm', rfl⟩, rfl⟩
      rw [← hi.isSome, hg] at this
      cases this

theorem optionLoop_panic {reg : Registry (Parser γ)} {opts : List Str} : ∀ {s : Proto γ}, optionLoop reg s opts = .panic →
    [] ∈ opts ∨ ∃ opt ∈ opts, ∃ n r, Means reg opt (n, .rule r) ∧ ':' ∉ n := by
  induction opts with
  | nil => intro s h; cases h
  | cons opt opts ih =>
    intro s h
    rw [optionLoop] at h
    cases hs : optionStep reg s opt with
    | err e => rw [hs] at h; cases h
    | ok s1 =>
      rw [hs] at h
      rcases ih h with h | ⟨o, ho, n, r, h⟩
      · exact .inl (by simp [h])
      · exact .inr ⟨o, by simp [ho], n, r, h⟩
    | panic =>
      rw [optionStep] at hs
      cases hw : withPlus opt with
      | none =>
        cases opt with
        | nil => exact .inl (by simp)
        | cons c cs => rw [withPlus] at hw; split at hw <;> cases hw
      | some raw =>
        rw [hw] at hs
        simp only at hs
        cases hl : reg.lookup raw .package with
        | none => rw [hl] at hs; cases hs
        | some d =>
          rw [hl] at hs
          simp only at hs
          cases hp : d.payload raw with
          | none => rw [hp] at hs; cases hs
          | some v =>
            rw [hp] at hs
            cases v with
            | generator g => simp only at hs; split at hs <;> cases hs
            | paths ps => cases hs
            | other => cases hs
            | rule r =>
              simp only at hs
              cases hsp : splitOutputRuleOption d.name with
              | some p => rw [hsp] at hs; simp only at hs; split at hs <;> cases hs
              | none =>
                refine .inr ⟨opt, by simp, d.name, r, ⟨raw, d, withPlus_some hw, hl, rfl, hp⟩, ?_⟩
                rw [splitOutputRuleOption] at hsp
                cases hc : Text.cut ':' d.name with
                | none => exact Text.cut_none.1 hc
                | some p =>
                  obtain ⟨a, b⟩ := p
                  rw [hc] at hsp
                  simp only at hsp
                  cases hc2 : Text.cut ':' b with
                  | none => rw [hc2] at hsp; cases hsp
                  | some q => rw [hc2] at hsp; cases hsp

/-- **C34** (no crash), for options that are not empty and output rules whose names have a colon (as those of the tool have). -/
theorem C34_no_crash_partial {reg : Registry (Parser γ)} {opts : List Str} (σ : Sched) (h1 : [] ∉ opts) (h2 : ∀ opt ∈ opts, ∀ n r, Means reg opt (n, .rule r) → ':' ∈ n) :
    protoFromOptions reg σ opts ≠ .panic := by
  intro h
  rw [protoFromOptions] at h
  cases hl : optionLoop reg {} opts with
  | err e => rw [hl] at h; cases h
  | panic =>
    rcases optionLoop_panic hl with h | ⟨o, ho, n, r, h, hn⟩
    · exact h1 h
    · exact hn (h2 o ho n r h)
  | ok s =>
    rw [hl] at h
    simp only at h
    cases ha : associate s.gensByName (σ.order 0 s.outputByGen) [] with
    | ok byGen => rw [ha] at h; cases h
    | err e' => rw [ha] at h; cases h
    | panic => exact associate_no_panic _ _ ha

/-! ## The rule of a generator -/

theorem get_foldl_put {κ ν : Type} [DecidableEq κ] (l : List (κ × ν)) (hl : (l.map (·.1)).Nodup) : ∀ (m : List (κ × ν)) (k : κ) (v : ν),
    GoMap.get (l.foldl (fun m e => GoMap.put m e.1 e.2) m) k = some v ↔ (k, v) ∈ l ∨ ((∀ v', (k, v') ∉ l) ∧ GoMap.get m k = some v) := by
  induction l with
  | nil => intro m k v; simp
  | cons e l ih =>
    obtain ⟨k0, v0⟩ := e
    intro m k v
    simp only [List.map_cons, List.nodup_cons] at hl
    rw [List.foldl_cons, ih hl.2, GoMap.get_put]
    by_cases hk : k = k0
    · subst hk
      rw [if_pos rfl]
      have : ∀ v', (k, v') ∉ l := fun v' h => hl.1 (List.mem_map.2 ⟨_, h, rfl⟩)
      simp [this, eq_comm]
    · simp [hk]

/-- **C36** (rule).  The output rule with which a generator runs is the last that is given for its name; if there is none, the last default that is given; and if there is none either, its artifacts go to the
directory of its name in `config`, and its code to where the package is.  This does not depend on the order in which maps are visited. -/
theorem C36_rule {reg : Registry (Parser γ)} {σ : Sched} {opts : List Str} {ms : List (Str × Value γ)} {rt : ProtoRuntime γ} (h : protoFromOptions reg σ opts = .ok rt)
    (hm : All2 (Means reg) opts ms) (join : Str → Str → Str) (i : Nat) (n : Str) (g : γ) (hg : (generators ms)[i]? = some (n, g)) :
    (∀ r, LastRule ms (some n) r → (runtimeRules join σ rt).forGenerator i = some r) ∧
    (NoRule ms (some n) → ∀ r, LastRule ms none r → (runtimeRules join σ rt).forGenerator i = some r) ∧
    (NoRule ms (some n) → NoRule ms none → (runtimeRules join σ rt).forGenerator i = some (.artifacts (join "config".toList n) [])) := by
  obtain ⟨h1, h2, h3, h4, h5, hw, hw'⟩ := C34_result h hm
  have hnone : ∀ tgt, NoRule ms tgt → ∀ r, ¬ LastRule ms tgt r := fun tgt hn r hr => hr.not_none hn
  by_cases hd : rt.rules.default ≠ none
  · obtain ⟨r0, hr0⟩ := Option.ne_none_iff_exists'.1 hd
    rw [runtimeRules, if_pos hd]
    refine ⟨?_, ?_, ?_⟩
    · intro r hr
      rw [OutputRules.forGenerator, (h4 i n g hg r).2 hr]
    · intro hn r hr
      rw [OutputRules.forGenerator]
      cases hc : GoMap.get rt.rules.byGenerator i with
      | some r' => exact absurd ((h4 i n g hg r').1 hc) (hnone _ hn r')
      | none => exact (h3 r).2 hr
    · intro _ hn
      exact absurd ((h3 r0).1 hr0) (hnone _ hn r0)
  · have hd' : rt.rules.default = none := Decidable.not_not.1 hd
    rw [runtimeRules, if_neg hd]
    have hnd : ((σ.order 2 rt.rules.byGenerator).map (·.1)).Nodup := (((σ.perm 2 rt.rules.byGenerator).map Prod.fst).nodup_iff).2 hw
    have key := get_foldl_put _ hnd (directoryPerGenerator join σ "config".toList rt.generatorsByName).byGenerator i
    refine ⟨?_, ?_, ?_⟩
    · intro r hr
      rw [OutputRules.forGenerator]
      have := (key r).2 (.inl ((σ.mem_order _ _ _).2 ((GoMap.get_eq_some hw).1 ((h4 i n g hg r).2 hr))))
      simp only [this]
    · intro _ r hr
      exact absurd ((h3 r).2 hr) (by rw [hd']; simp)
    · intro hn _
      rw [OutputRules.forGenerator]
      have hdir : GoMap.get (directoryPerGenerator join σ "config".toList rt.generatorsByName).byGenerator i = some (.artifacts (join "config".toList n) []) := by
        have hfold : (directoryPerGenerator join σ "config".toList rt.generatorsByName).byGenerator =
            ((σ.order 1 rt.generatorsByName).map fun e => (e.2, Rule.artifacts (join "config".toList e.1) [])).foldl (fun m e => GoMap.put m e.1 e.2) [] := by
          rw [List.foldl_map]; rfl
        have hinj : ∀ a ∈ rt.generatorsByName, ∀ b ∈ rt.generatorsByName, a.2 = b.2 → a = b := by
          rintro ⟨n1, i1⟩ ha ⟨n2, i2⟩ hb hab
          simp only at hab
          subst hab
          obtain ⟨g1, e1⟩ := (h5 n1 i1).1 ((GoMap.get_eq_some hw').2 ha)
          obtain ⟨g2, e2⟩ := (h5 n2 i1).1 ((GoMap.get_eq_some hw').2 hb)
          rw [e1] at e2
          cases e2
          rfl
        have hnd' : (((σ.order 1 rt.generatorsByName).map fun e => (e.2, Rule.artifacts (join "config".toList e.1) [])).map (·.1)).Nodup := by
          rw [List.map_map]
          refine (List.Perm.nodup_iff ((σ.perm 1 rt.generatorsByName).map _)).2 ?_
          refine List.pairwise_map.2 ?_
          have hnodup : rt.generatorsByName.Nodup := GoMap.WF.nodup hw'
          refine List.Pairwise.imp_of_mem ?_ hnodup
          intro a b ha hb hab he
          exact hab (hinj a ha b hb he)
        rw [hfold, get_foldl_put _ hnd']
        refine .inl (List.mem_map.2 ⟨(n, i), (σ.mem_order _ _ _).2 ((GoMap.get_eq_some hw').1 ((h5 n i).2 ⟨g, hg⟩)), rfl⟩)
      have := (key (.artifacts (join "config".toList n) [])).2 (.inr ⟨?_, hdir⟩)
      · simp only [this]
      · intro r hmem
        rw [σ.mem_order] at hmem
        exact hnone _ hn r ((h4 i n g hg r).1 ((GoMap.get_eq_some hw).2 hmem))

end Verif.Genall

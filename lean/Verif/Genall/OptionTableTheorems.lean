import Verif.Genall.OptionTable
import Verif.Markers.ParseExamples
/-!
# C73: the command line of controller-gen is understood as it is written
-/
namespace Verif.Genall
open Markers (Str Def Registry Target Marker Output Loaded Env Field Definition)
open Markers.Spec (Found NeverRegistered ShowsArgs ShowsArg ShowsLegacy)
open Spec

theorem option_one {o : Opt} (h : o ∈ optionTable) : (∃ d, o.marker.define = some d) ∧ '=' ∉ o.name ∧ o.arguments.Nodup ∧ ∀ a ∈ o.arguments, a ≠ [] → '=' ∉ a ∧ ':' ∉ a := by
  have := List.all_eq_true.1 options_one o h
  simp only [Bool.and_eq_true, Option.isSome_iff_exists, Bool.not_eq_true', List.contains_eq_mem, decide_eq_false_iff_not, decide_eq_true_eq, List.all_eq_true, Bool.or_eq_true,
    beq_iff_eq] at this
  obtain ⟨⟨⟨h1, h2⟩, h3⟩, h4⟩ := this
  exact ⟨h1, h2, h3, fun a ha hne => (h4 a ha).resolve_left hne⟩

theorem option_unique {o o' : Opt} (h : o ∈ optionTable) (h' : o' ∈ optionTable) (hn : o.name = o'.name) : o = o' := by
  have key : ∀ (l : List Opt), (l.map (·.name)).Nodup → o ∈ l → o' ∈ l → o = o' := by
    intro l
    induction l with
    | nil => intro _ h; cases h
    | cons a l ih =>
      intro hnd h1 h2
      simp only [List.map_cons, List.nodup_cons, List.mem_map, not_exists, not_and] at hnd
      rcases List.mem_cons.1 h1 with e1 | m1 <;> rcases List.mem_cons.1 h2 with e2 | m2
      · rw [e1, e2]
      · exact absurd (e1 ▸ hn.symm) (hnd.1 o' m2)
      · exact absurd (e2 ▸ hn) (hnd.1 o m1)
      · exact ih hnd.2 m1 m2
  exact key _ options_names.1 h h'

theorem option_args {o o' : Opt} (h : o ∈ optionTable) (h' : o' ∈ optionTable) {a : Str} (ha : a ∈ o.arguments) (hne : a ≠ []) : o'.name ≠ o.name ++ ':' :: a := by
  have := List.all_eq_true.1 (List.all_eq_true.1 options_args o h) a ha
  simp only [Bool.or_eq_true, beq_iff_eq, hne, false_or] at this
  exact of_decide_eq_true (List.all_eq_true.1 this o' h')

theorem define_opt {E : Env} {o : Opt} {d : Def (Parser Chosen)} (h : o.define E = some d) : d.name = o.name ∧ d.target = .package ∧
    ∃ l, o.marker.define = some l ∧ d.payload = fun raw => match (o.marker.parser l).parse E raw with
      | .error _ => none
      | .ok vals => some (o.value vals) := by
  unfold Opt.define at h
  cases hd : o.marker.define with
  | none => rw [hd] at h; cases h
  | some l =>
    rw [hd] at h
    obtain ⟨n1, n2⟩ := Markers.define_name hd
    cases h
    exact ⟨n1, n2, l, rfl, rfl⟩

theorem mapM_opt {E : Env} : ∀ {os : List Opt} {ds : List (Def (Parser Chosen))}, os.mapM (Opt.define E) = some ds →
    (∀ d ∈ ds, ∃ o ∈ os, o.define E = some d) ∧ ∀ o ∈ os, ∃ d ∈ ds, o.define E = some d := by
  intro os
  induction os with
  | nil => intro ds h; simp at h; subst h; simp
  | cons m ms ih =>
    intro ds h
    simp only [List.mapM_cons, Option.bind_eq_bind, Option.bind_eq_some_iff, Option.pure_def, Option.some.injEq] at h
    obtain ⟨d, hd, ds', hds, rfl⟩ := h
    obtain ⟨h1, h2⟩ := ih hds
    constructor
    · intro e he
      rcases List.mem_cons.1 he with rfl | he
      · exact ⟨m, List.mem_cons_self, hd⟩
      · obtain ⟨m', hm', h'⟩ := h1 e he
        exact ⟨m', List.mem_cons_of_mem _ hm', h'⟩
    · intro e he
      rcases List.mem_cons.1 he with rfl | he
      · exact ⟨d, List.mem_cons_self, hd⟩
      · obtain ⟨m', hm', h'⟩ := h2 e he
        exact ⟨m', List.mem_cons_of_mem _ hm', h'⟩

/-- **C73** (init): the program does not panic when its options are registered, in whichever order maps are visited. -/
theorem C73_init (E : Env) (σ : Sched) : ∃ reg, toolRegistry E σ = some reg := by
  have key : ∀ os : List Opt, (∀ o ∈ os, o ∈ optionTable) → ∃ ds, os.mapM (Opt.define E) = some ds := by
    intro os
    induction os with
    | nil => exact fun _ => ⟨[], rfl⟩
    | cons o os ih =>
      intro h
      obtain ⟨d, hd⟩ := (option_one (h o List.mem_cons_self)).1
      obtain ⟨ds, hds⟩ := ih fun o ho => h o (List.mem_cons_of_mem _ ho)
      have : ∃ e, o.define E = some e := by simp [Opt.define, hd]
      obtain ⟨e, he⟩ := this
      exact ⟨e :: ds, by simp [List.mapM_cons, he, hds]⟩
  obtain ⟨ds, hds⟩ := key (initOptions σ) fun o ho => (mem_initOptions σ).1 ho
  exact ⟨_, by unfold toolRegistry; rw [hds]; rfl⟩

/-- What is registered under a name. -/
theorem tool_get {E : Env} {σ : Sched} {reg : Registry (Parser Chosen)} (h : toolRegistry E σ = some reg) (n : Str) :
    (∃ o ∈ optionTable, o.name = n ∧ ∃ d, o.define E = some d ∧ GoMap.get (Markers.tableOf reg .package) n = some d) ∨
    ((∀ o ∈ optionTable, o.name ≠ n) ∧ GoMap.get (Markers.tableOf reg .package) n = none) := by
  unfold toolRegistry at h
  cases hm : (initOptions σ).mapM (Opt.define E) with
  | none => rw [hm] at h; cases h
  | some ds =>
    rw [hm] at h
    cases h
    obtain ⟨h1, h2⟩ := mapM_opt hm
    rcases Markers.after_get ds n .package (.inl rfl) with ⟨d, hd, _, hn, _, before, after, rfl, _⟩ | ⟨hd, hv | hnever⟩
    · left
      obtain ⟨o, ho, hdef⟩ := h1 d (by simp)
      exact ⟨o, (mem_initOptions σ).1 ho, (define_opt hdef).1.symm.trans hn, d, hdef, hd⟩
    · exact absurd (.inl rfl) hv
    · right
      refine ⟨?_, hd⟩
      rintro o ho rfl
      obtain ⟨d, hd, hdef⟩ := h2 o ((mem_initOptions σ).2 ho)
      exact hnever d hd ⟨(define_opt hdef).1, (define_opt hdef).2.1⟩

theorem tool_get_eq {E : Env} {σ σ' : Sched} {reg reg' : Registry (Parser Chosen)} (h : toolRegistry E σ = some reg) (h' : toolRegistry E σ' = some reg') (n : Str) :
    GoMap.get (Markers.tableOf reg .package) n = GoMap.get (Markers.tableOf reg' .package) n := by
  rcases tool_get h n with ⟨o, ho, hn, d, hd, e⟩ | ⟨hno, e⟩ <;> rcases tool_get h' n with ⟨o', ho', hn', d', hd', e'⟩ | ⟨hno', e'⟩
  · rw [e, e', ← hd, ← hd', option_unique ho ho' (hn.trans hn'.symm)]
  · exact absurd hn (hno' o ho)
  · exact absurd hn' (hno o' ho')
  · rw [e, e']

/-- **C73** (order): how a command line is understood does not depend on the order in which the maps of generators and output rules were visited when the options were registered. -/
theorem C73_order {E : Env} {σ σ' : Sched} {reg reg' : Registry (Parser Chosen)} (h : toolRegistry E σ = some reg) (h' : toolRegistry E σ' = some reg') (τ : Sched) (opts : List Str) :
    protoFromOptions reg τ opts = protoFromOptions reg' τ opts := by
  have hl : ∀ raw, reg.lookup raw .package = reg'.lookup raw .package := by
    intro raw
    rw [Markers.lookup_eq _ _ _ (.inl rfl), Markers.lookup_eq _ _ _ (.inl rfl)]
    unfold Markers.tryAnonLookup
    simp only [tool_get_eq h h']
  have hs : ∀ s opt, optionStep reg s opt = optionStep reg' s opt := by
    intro s opt
    unfold optionStep
    cases withPlus opt with
    | none => rfl
    | some raw => simp only [hl raw]
  have hL : ∀ (opts : List Str) s, optionLoop reg s opts = optionLoop reg' s opts := by
    intro opts
    induction opts with
    | nil => intro s; rfl
    | cons o opts ih =>
      intro s
      unfold optionLoop
      rw [hs]
      cases optionStep reg' s o with
      | ok s' => exact ih s'
      | err e => rfl
      | panic => rfl
  unfold protoFromOptions
  rw [hL]

/-! ## What options mean -/

/-- An option that is found under its name. -/
theorem tool_option {E : Env} {σ : Sched} {reg : Registry (Parser Chosen)} (h : toolRegistry E σ = some reg) {o : Opt} (ho : o ∈ optionTable) :
    ∃ d, o.define E = some d ∧ GoMap.get (Markers.tableOf reg .package) o.name = some d := by
  rcases tool_get h o.name with ⟨o', ho', hn, d, hd, e⟩ | ⟨hno, _⟩
  · exact ⟨d, option_unique ho' ho hn ▸ hd, e⟩
  · exact absurd rfl (hno o ho)

set_option maxRecDepth 100000 in
theorem options_head : (optionTable.all fun o => decide (o.name.head? ≠ none ∧ o.name.head? ≠ some '+')) = true := by decide +kernel

theorem means_of {E : Env} {σ : Sched} {reg : Registry (Parser Chosen)} (_h : toolRegistry E σ = some reg) {o : Opt} (ho : o ∈ optionTable) {d : Def (Parser Chosen)} (hd : o.define E = some d) {l : Def Loaded}
    (hl : o.marker.define = some l) {rest : Str} {vals : List (Str × Markers.Value)}
    (hlk : reg.lookup ('+' :: (o.name ++ rest)) .package = some d) (hp : (o.marker.parser l).parse E ('+' :: (o.name ++ rest)) = .ok vals) :
    Means reg (o.name ++ rest) (o.name, o.value vals) ∧ Means reg ('+' :: (o.name ++ rest)) (o.name, o.value vals) := by
  obtain ⟨h1, _, l', hl', h3⟩ := define_opt hd
  rw [hl] at hl'; cases hl'
  have hpay : d.payload ('+' :: (o.name ++ rest)) = some (o.value vals) := by rw [h3]; simp only [hp]
  refine ⟨⟨_, d, .inr ?_, hlk, h1, hpay⟩, ⟨_, d, .inl ⟨_, rfl, rfl⟩, hlk, h1, hpay⟩⟩
  have := of_decide_eq_true (List.all_eq_true.1 options_head o ho)
  cases hn : o.name with
  | nil => rw [hn] at this; exact absurd rfl this.1
  | cons c r => rw [hn] at this; exact ⟨c, r ++ rest, rfl, by simpa using this.2, by simp⟩

/-- **C73** (bare options): an option that requires no argument may be written as its name alone, and means the default. -/
theorem C73_bare {E : Env} {σ : Sched} {reg : Registry (Parser Chosen)} (h : toolRegistry E σ = some reg) {o : Opt} (ho : o ∈ optionTable) (hreq : o.required = []) :
    Means reg o.name (o.name, o.value []) ∧ Means reg ('+' :: o.name) (o.name, o.value []) := by
  obtain ⟨⟨l, hl⟩, heq, _, _⟩ := option_one ho
  obtain ⟨d, hd, hg⟩ := tool_option h ho
  have hlk : reg.lookup ('+' :: o.name) .package = some d := by
    rw [Markers.lookup_eq _ _ _ (.inl rfl), Markers.tryAnonLookup, Markers.splitMarker_plain heq]
    simp only [hg]
  have hp : (o.marker.parser l).parse E ('+' :: o.name) = .ok [] := by
    have hft : Markers.fieldsText (o.marker.parser l) ('+' :: o.name) = [] := by
      simp [Markers.fieldsText, Markers.splitMarker_plain heq]
    have hpk : Markers.peek (Markers.Sc.init []) = none := rfl
    obtain ⟨s, h4⟩ := Markers.scan_eof (U := E.toUnicode) (s := Markers.Sc.init []) rfl
    unfold Definition.parse
    rw [hft]
    simp only [Markers.parseArgs, hpk, ne_eq, not_true_eq_false, and_false, if_false, h4]
    rw [if_neg]
    rintro ⟨_, hany⟩
    obtain ⟨f, hf, hb⟩ := List.any_eq_true.1 hany
    simp only [Opt.required, hl, Option.map_some, Option.getD_some, List.map_eq_nil_iff, List.filter_eq_nil_iff] at hreq
    have := hreq f hf
    simp only [Bool.and_eq_true] at hb
    exact this hb.1
  have := means_of h ho hd hl (rest := []) (by simpa using hlk) (by simpa using hp)
  simpa using this

/-- **C73** (arguments): an option written `name:a=x,b=y,…`, with texts that denote values for its arguments, none twice and every required one, means the option with these values. -/
theorem C73_named {E : Env} {σ : Sched} {reg : Registry (Parser Chosen)} (h : toolRegistry E σ = some reg) {o : Opt} (ho : o ∈ optionTable) {l : Def Loaded} (hl : o.marker.define = some l)
    {vals : List (Str × Markers.Value)} {y : Str} (hv : (vals.map (·.1)).Nodup) (hy : ShowsArgs E (o.marker.parser l) vals y) (hreq : ∀ n ∈ o.required, n ∈ vals.map (·.1)) :
    Means reg (o.name ++ ':' :: y) (o.name, o.value vals) ∧ Means reg ('+' :: (o.name ++ ':' :: y)) (o.name, o.value vals) := by
  obtain ⟨_, heq, hnd, hargs⟩ := option_one ho
  obtain ⟨d, hd, hg⟩ := tool_option h ho
  have hnames : (o.marker.parser l).fields.map (·.name) = o.arguments := Markers.parser_names hl
  have hp := Markers.C14_named (E := E) (name := o.name) heq (hnames ▸ hnd) hv hy fun _ f hf ho' => hreq f.name (by
    simp only [Opt.required, hl, Option.map_some, Option.getD_some]
    exact List.mem_map.2 ⟨f, List.mem_filter.2 ⟨hf, by simp [ho']⟩, rfl⟩)
  refine means_of h ho hd hl ?_ hp
  obtain ⟨a, ha, hne, v, rfl⟩ := Markers.showsArgs_head hy
  rw [hnames] at ha
  obtain ⟨h1, h2⟩ := hargs a ha hne
  have e : o.name ++ ':' :: (a ++ '=' :: v) = o.name ++ ':' :: a ++ '=' :: v := by simp
  rw [e, Markers.lookup_eq _ _ _ (.inl rfl), Markers.tryAnonLookup, Markers.splitMarker_colon (by simp [heq, h1]) h2]
  have : GoMap.get (Markers.tableOf reg .package) (o.name ++ ':' :: a) = none := by
    rcases tool_get h (o.name ++ ':' :: a) with ⟨o', ho', hn, _⟩ | ⟨_, e⟩
    · exact absurd hn (option_args ho ho' ha hne)
    · exact e
  simp only [this, hg]

theorem lookup_value {E : Env} {σ : Sched} {reg : Registry (Parser Chosen)} (h : toolRegistry E σ = some reg) {o : Opt} (ho : o ∈ optionTable) {d : Def (Parser Chosen)} (hd : o.define E = some d) (x : Str) :
    reg.lookup ('+' :: (o.name ++ '=' :: x)) .package = some d := by
  obtain ⟨_, heq, _, _⟩ := option_one ho
  obtain ⟨d', hd', hg⟩ := tool_option h ho
  rw [hd] at hd'; cases hd'
  rw [Markers.lookup_eq _ _ _ (.inl rfl), Markers.tryAnonLookup, Markers.splitMarker]
  simp only [List.tail_cons, Markers.splitMarkerBody, Text.cut_append heq, hg]

/-- **C73** (values): an option whose value has no name, written `name=x` with a text that denotes a value, means the option with this value. -/
theorem C73_value {E : Env} {σ : Sched} {reg : Registry (Parser Chosen)} (h : toolRegistry E σ = some reg) {o : Opt} (ho : o ∈ optionTable) {l : Def Loaded} (hl : o.marker.define = some l)
    {f : Field} {v : Markers.Value} {x : Str} (hf : (o.marker.parser l).fields = [f]) (hn : f.name = []) (hx : ShowsArg E f.arg v x) :
    Means reg (o.name ++ '=' :: x) (o.name, o.value [([], v)]) ∧ Means reg ('+' :: (o.name ++ '=' :: x)) (o.name, o.value [([], v)]) := by
  obtain ⟨_, heq, _, _⟩ := option_one ho
  obtain ⟨d, hd, _⟩ := tool_option h ho
  exact means_of h ho hd hl (lookup_value h ho hd x) (Markers.C14_anonymous hf hn heq hx)

/-- **C73** (paths): `paths=a;b;c` gives the paths a, b and c. -/
theorem C73_paths {E : Env} {σ : Sched} {reg : Registry (Parser Chosen)} (h : toolRegistry E σ = some reg) {ps : List Str} {x : Str} (hs : ShowsLegacy E .str (ps.map .str) x) (hb : x.head? ≠ some '{') :
    Means reg ("paths=".toList ++ x) ("paths".toList, .paths ps) := by
  have ho : (⟨"paths".toList, .paths, .plain (.slice .string)⟩ : Opt) ∈ optionTable := by
    unfold optionTable initOptions; simp
  obtain ⟨⟨l, hl⟩, heq, _, _⟩ := option_one ho
  obtain ⟨d, hd, _⟩ := tool_option h ho
  have hf : (Opt.marker ⟨"paths".toList, .paths, .plain (.slice .string)⟩).define.map (fun l => (Marker.parser (Opt.marker ⟨"paths".toList, .paths, .plain (.slice .string)⟩) l).fields) =
      some [⟨[], .slice .str, false⟩] := by decide +kernel
  rw [hl] at hf
  simp only [Option.map_some, Option.some.injEq] at hf
  have hp := Markers.C14_anonymous (E := E) (name := "paths".toList) hf rfl heq (.list hs hb)
  have := (means_of h ho hd hl (lookup_value h ho hd x) hp).1
  have hval : Opt.value ⟨"paths".toList, .paths, .plain (.slice .string)⟩ [([], .slice (ps.map .str))] = .paths ps := by
    simp only [Opt.value, GoMap.get]
    simp [List.filterMap_map, Function.comp_def]
  rw [hval] at this
  have e : "paths=".toList ++ x = "paths".toList ++ '=' :: x := by
    rw [show "paths=".toList = "paths".toList ++ ['='] by decide +kernel]; simp
  rw [e]
  exact this

/-- The names of what is parsed are names of arguments. -/
theorem parse_names {E : Env} {d : Definition} {raw : Str} {vals : List (Str × Markers.Value)} (h : d.parse E raw = .ok vals) : ∀ n ∈ vals.map (·.1), n ∈ d.fields.map (·.name) := by
  intro n hn
  by_cases hft : Markers.fieldsText d raw = []
  · simp only [Definition.parse, Markers.parseArgs, hft] at h
    have hpk : Markers.peek (Markers.Sc.init []) = none := rfl
    simp only [hpk, ne_eq, not_true_eq_false, and_false, if_false] at h
    split at h
    · cases h
    · split at h
      · cases h
      · split at h
        · cases h
        · cases h; simp at hn
  · by_cases ha : d.anonymousField = true
    · simp only [Definition.anonymousField, Bool.and_eq_true, decide_eq_true_eq, List.any_eq_true] at ha
      obtain ⟨hlen, f, hf, hfn⟩ := ha
      obtain ⟨g, hg⟩ := List.length_eq_one_iff.1 hlen
      rw [hg, List.mem_singleton] at hf
      subst hf
      obtain ⟨_, _, v, _, _, _, rfl, _⟩ := Markers.C15_accepted_anonymous hg hfn hft h
      simp only [List.map_cons, List.map_nil, List.mem_singleton] at hn
      rw [hg, hn]
      simp [hfn]
    · by_cases hne : d.fields = []
      · obtain ⟨rfl, _⟩ := Markers.C15_accepted_empty hne h
        simp at hn
      · obtain ⟨gs, _, h2, _, h4, _⟩ := Markers.C15_accepted_partial (by simpa using ha) hne hft h
        obtain ⟨g, hg, rfl⟩ := List.mem_map.1 ((h4 n).1 hn)
        obtain ⟨f, hf, e, _⟩ := h2 g hg
        exact e ▸ List.mem_map_of_mem hf

/-- **C73** (nothing else): an accepted option is one of the table, begins with its name, and sets only arguments that the option has: misspelt names are rejected. -/
theorem C73_only {E : Env} {σ : Sched} {reg : Registry (Parser Chosen)} (h : toolRegistry E σ = some reg) {opt : Str} {m : Str × Value Chosen} (hm : Means reg opt m) :
    ∃ o ∈ optionTable, m.1 = o.name ∧ (o.name <+: opt ∨ '+' :: o.name <+: opt) ∧ ∃ vals, m.2 = o.value vals ∧ ∀ n ∈ vals.map (·.1), n ∈ o.arguments := by
  obtain ⟨raw, d, hraw, hl, hn, hp⟩ := hm
  have hget : ∃ n, GoMap.get (Markers.tableOf reg .package) n = some d ∧ '+' :: n <+: raw := by
    obtain ⟨body, rfl⟩ : ∃ body, raw = '+' :: body := by
      rcases hraw with ⟨rest, rfl, rfl⟩ | ⟨c, rest, _, _, rfl⟩
      · exact ⟨_, rfl⟩
      · exact ⟨_, rfl⟩
    rw [Markers.lookup_eq _ _ _ (.inl rfl), Markers.tryAnonLookup] at hl
    rcases Markers.C13_forms body with heq | ⟨name, v, rfl, h1, h2⟩ | ⟨pre, last, v, rfl, h1, h2⟩
    · rw [Markers.splitMarker_plain heq] at hl
      simp only at hl
      have : GoMap.get (Markers.tableOf reg .package) body = some d := by
        split at hl
        · rename_i h'; rw [h', ← hl]
        · exact hl
      exact ⟨body, this, List.prefix_refl _⟩
    · rw [Markers.splitMarker_nocolon h1 h2] at hl
      simp only at hl
      have : GoMap.get (Markers.tableOf reg .package) name = some d := by
        split at hl
        · rename_i h'; rw [h', ← hl]
        · exact hl
      exact ⟨name, this, ⟨'=' :: v, rfl⟩⟩
    · rw [Markers.splitMarker_colon h1 h2] at hl
      simp only at hl
      split at hl
      · rename_i d' h'
        cases hl
        exact ⟨_, h', ⟨'=' :: v, by simp⟩⟩
      · exact ⟨pre, hl, ⟨':' :: last ++ '=' :: v, by simp⟩⟩
  obtain ⟨n, hg, hpre⟩ := hget
  rcases tool_get h n with ⟨o, ho, rfl, d', hd', e⟩ | ⟨_, e⟩
  · rw [hg] at e; cases e
    obtain ⟨h1, _, l, hl', h3⟩ := define_opt hd'
    refine ⟨o, ho, by rw [← hn, h1], ?_, ?_⟩
    · rcases hraw with ⟨rest, rfl, rfl⟩ | ⟨c, rest, rfl, _, rfl⟩
      · exact .inr hpre
      · exact .inl (List.cons_prefix_cons.1 hpre).2
    · rw [h3] at hp
      simp only at hp
      cases hpar : (o.marker.parser l).parse E raw with
      | error e => rw [hpar] at hp; cases hp
      | ok vals =>
        rw [hpar] at hp
        refine ⟨vals, (Option.some.inj hp).symm, fun n hn' => ?_⟩
        have := parse_names hpar n hn'
        rwa [Markers.parser_names hl'] at this
  · rw [hg] at e; cases e

set_option maxRecDepth 100000 in
theorem options_colon : (optionTable.all fun o => match o.kind with
    | .rule _ => decide (':' ∈ o.name)
    | _ => true) = true := by decide +kernel

/-- **C73** (no crash): no command line without empty options makes the program panic while it reads its options. -/
theorem C73_no_crash_partial {E : Env} {σ : Sched} {reg : Registry (Parser Chosen)} (h : toolRegistry E σ = some reg) (τ : Sched) {opts : List Str} (hne : [] ∉ opts) : protoFromOptions reg τ opts ≠ .panic := by
  refine C34_no_crash_partial τ hne fun opt _ n r hm => ?_
  obtain ⟨o, ho, e, _, vals, hv, _⟩ := C73_only h hm
  simp only at e hv
  have := List.all_eq_true.1 options_colon o ho
  rw [e]
  cases hk : o.kind with
  | rule q => rw [hk] at this; exact of_decide_eq_true this
  | generator => simp [Opt.value, hk] at hv
  | paths =>
    simp only [Opt.value, hk] at hv
    split at hv <;> cases hv

/-! ## Examples -/

namespace ToolExample

instance : DecidableEq (ProtoRuntime Chosen) := instDecidableEqProtoRuntime
instance : DecidableEq (Outcome OptErr (ProtoRuntime Chosen)) := instDecidableEqOutcome

def understood (l : List String) : Option (Outcome OptErr (ProtoRuntime Chosen)) := (toolRegistry Markers.exEnv .fifo).map fun reg => protoFromOptions reg .fifo (l.map String.toList)

/-- The first example of the help (main.go:137-139). -/
example : understood ["rbac:roleName=manager", "crd", "paths=./apis/...", "output:crd:dir=/tmp/crds", "output:stdout"] = some (.ok
    { paths := ["./apis/...".toList], generators := [("rbac".toList, [("roleName".toList, .str "manager".toList)]), ("crd".toList, [])],
      rules := { default := some .stdout, byGenerator := [(1, .dir "/tmp/crds".toList)] }, generatorsByName := [("rbac".toList, 0), ("crd".toList, 1)] }) := by decide +kernel

/-- The second one, the third one and the last one (main.go:141-145, 156). -/
example : understood ["object", "paths=./apis/v1beta1/some_types.go"] = some (.ok
    { paths := ["./apis/v1beta1/some_types.go".toList], generators := [("object".toList, [])], rules := { default := none, byGenerator := [] }, generatorsByName := [("object".toList, 0)] }) := by decide +kernel

example : understood ["schemapatch:manifests=./manifests", "output:dir=./manifests", "paths=./pkg/apis/..."] = some (.ok
    { paths := ["./pkg/apis/...".toList], generators := [("schemapatch".toList, [("manifests".toList, .str "./manifests".toList)])], rules := { default := some (.dir "./manifests".toList), byGenerator := [] },
      generatorsByName := [("schemapatch".toList, 0)] }) := by decide +kernel

/-- Several arguments, a list and two kinds of lists of paths. -/
example : understood ["crd:maxDescLen=0,crdVersions={v1},year=2024", "paths={./a,./b}", "paths=./c;./d", "output:crd:artifacts:config=x"] = some (.ok
    { paths := ["./a", "./b", "./c", "./d"].map String.toList,
      generators := [("crd".toList, [("maxDescLen".toList, .int 0), ("crdVersions".toList, .slice [.str "v1".toList]), ("year".toList, .str "2024".toList)])],
      rules := { default := none, byGenerator := [(0, .artifacts "x".toList [])] }, generatorsByName := [("crd".toList, 0)] }) := by decide +kernel

/-- A required argument is missing; a name is misspelt. -/
example : understood ["rbac"] = some (.err (.unparsable "rbac".toList)) ∧ understood ["crd:maxDescLength=0"] = some (.err (.unparsable "crd:maxDescLength=0".toList)) := by decide +kernel

/-- Violation of C73: the help says that `controller-gen paths=./apis/...` runs all the generators (main.go:147-148); no generator is chosen. -/
theorem C73_violated_all : understood ["paths=./apis/..."] = some (.ok { paths := ["./apis/...".toList], generators := [], rules := { default := none, byGenerator := [] }, generatorsByName := [] }) := by
  decide +kernel

/-- So the program fails, whatever the packages are. -/
theorem C73_violated_all_exit {W : Type} (reg : Registry (Parser (Gen W))) (σ : Sched) (join : Str → Str → Str) (load : List Str → List (Gen W) → Option W) (errors : W → Nat → List Loader.PkgErr) (visited : W → List Nat)
    (hreg : ∃ ps, Means reg "paths=./apis/...".toList ("paths".toList, .paths ps)) : exitStatus reg σ join load errors visited ["paths=./apis/...".toList] = .ok 1 := by
  obtain ⟨ps, hm⟩ := hreg
  have hall : All2 (Means reg) ["paths=./apis/...".toList] [("paths".toList, .paths ps)] := .cons hm .nil
  obtain ⟨rt, hrt⟩ := (C34_accepted reg σ _).2 ⟨_, hall, ⟨by simp [generators], by simp, by simp⟩⟩
  have hg : rt.generators = [] := by
    have := (C34_result hrt hall).2.1
    simpa [generators] using this
  unfold exitStatus
  rw [hrt]
  simp only [hg]
  split
  · rfl
  · rfl

end ToolExample
end Verif.Genall

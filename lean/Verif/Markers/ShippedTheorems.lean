import Verif.Markers.ShippedTable
import Verif.Markers.DefineTheorems
import Verif.Markers.RegistryTheorems
import Verif.Markers.ParseTheorems
/-!
# C68: every marker of controller-gen is recognised in each of its forms
-/
namespace Verif.Markers
open Spec

theorem last_colon {s : Str} (h : ':' ∈ s) : ∃ pre last, s = pre ++ ':' :: last ∧ ':' ∉ last := by
  induction s with
  | nil => cases h
  | cons c s ih =>
    by_cases hs : ':' ∈ s
    · obtain ⟨pre, last, rfl, hl⟩ := ih hs
      exact ⟨c :: pre, last, rfl, hl⟩
    · rcases List.mem_cons.1 h with rfl | h
      · exact ⟨[], s, rfl, hs⟩
      · exact absurd h hs

theorem define_name {m : Marker} {d : Def Loaded} (h : m.define = some d) : d.name = m.name ∧ d.target = m.target := by
  unfold Marker.define at h
  cases hd : makeDefinition Char.toLower m.name m.target m.output with
  | none => rw [hd] at h; cases h
  | some e =>
    have he : e.name = m.name ∧ e.target = m.target := by
      unfold makeDefinition at hd
      split at hd
      · cases hd
      · cases hd; exact ⟨rfl, rfl⟩
    rw [hd] at h
    simp only at h
    have key : ∀ e' : Def Loaded, e'.name = m.name ∧ e'.target = m.target → (if m.optional = true then makeOptional e' else some e') = some d → d.name = m.name ∧ d.target = m.target := by
      intro e' he' h
      split at h
      · unfold makeOptional at h
        split at h
        · cases h; exact he'
        · cases h
      · cases h; exact he'
    refine key _ ?_ h
    split
    · exact he
    · exact he

theorem table_one {m : Marker} (h : m ∈ Shipped.table) : (∃ d, m.define = some d) ∧ '=' ∉ m.name ∧ Valid m.target ∧
    ∀ a ∈ m.arguments, a ≠ [] → '=' ∉ a ∧ ':' ∉ a := by
  have := List.all_eq_true.1 checkOne_table m h
  simp only [checkOne, Bool.and_eq_true, Option.isSome_iff_exists, Bool.not_eq_true', List.contains_eq_mem, decide_eq_false_iff_not, decide_eq_true_eq, List.all_eq_true, Bool.or_eq_true,
    beq_iff_eq] at this
  obtain ⟨⟨⟨h1, h2⟩, h3⟩, h4⟩ := this
  exact ⟨h1, h2, h3, fun a ha hne => (h4 a ha).resolve_left hne⟩

theorem table_unique {m m' : Marker} (h : m ∈ Shipped.table) (h' : m' ∈ Shipped.table) (hn : m.name = m'.name) (ht : m.target = m'.target) : m = m' :=
  of_decide_eq_true (List.all_eq_true.1 (List.all_eq_true.1 unique_table m h) m' h') hn ht

theorem table_args {m m' : Marker} (h : m ∈ Shipped.table) (h' : m' ∈ Shipped.table) {a : Str} (ha : a ∈ m.arguments) (hne : a ≠ []) : m'.name ≠ m.name ++ ':' :: a := by
  have := List.all_eq_true.1 (List.all_eq_true.1 args_table m h) a ha
  simp only [Bool.or_eq_true, beq_iff_eq, hne, false_or] at this
  exact of_decide_eq_true (List.all_eq_true.1 this m' h')

/-! ## Histories -/

theorem mapM_define {ms : List Marker} : ∀ {ds : List (Def Loaded)}, ms.mapM Marker.define = some ds →
    (∀ d ∈ ds, ∃ m ∈ ms, m.define = some d) ∧ ∀ m ∈ ms, ∃ d ∈ ds, m.define = some d := by
  induction ms with
  | nil => intro ds h; simp at h; subst h; simp
  | cons m ms ih =>
    intro ds h
    simp only [List.mapM_cons, Option.bind_eq_bind, Option.bind_eq_some_iff, Option.pure_def, Option.some.injEq] at h
    obtain ⟨d, hd, ds', hds, rfl⟩ := h
    obtain ⟨h1, h2⟩ := ih hds
    constructor
    · intro e he
      rcases List.mem_cons.1 he with rfl | he
      · exact ⟨m, List.mem_cons_self, hd⟩
      · obtain ⟨m', hm', h'⟩ := h1 e he
        exact ⟨m', List.mem_cons_of_mem _ hm', h'⟩
    · intro e he
      rcases List.mem_cons.1 he with rfl | he
      · exact ⟨d, List.mem_cons_self, hd⟩
      · obtain ⟨m', hm', h'⟩ := h2 e he
        exact ⟨m', List.mem_cons_of_mem _ hm', h'⟩

theorem mapM_define_some {ms : List Marker} (h : ∀ m ∈ ms, ∃ d, m.define = some d) : ∃ ds, ms.mapM Marker.define = some ds := by
  induction ms with
  | nil => exact ⟨[], rfl⟩
  | cons m ms ih =>
    obtain ⟨d, hd⟩ := h m List.mem_cons_self
    obtain ⟨ds, hds⟩ := ih fun m hm => h m (List.mem_cons_of_mem _ hm)
    exact ⟨d :: ds, by simp [List.mapM_cons, hd, hds]⟩

theorem lookup_registers {g : String} {ms : List Marker} : Shipped.registers.lookup g = some ms ↔ (g, ms) ∈ Shipped.registers := by
  have hk : (Shipped.registers.map (·.1)).Nodup := by unfold Shipped.registers; decide
  have key : ∀ l : List (String × List Marker), (l.map (·.1)).Nodup → (l.lookup g = some ms ↔ (g, ms) ∈ l) := by
    intro l
    induction l with
    | nil => simp
    | cons e l ih =>
      obtain ⟨k, v⟩ := e
      intro hn
      simp only [List.map_cons, List.nodup_cons, List.mem_map] at hn
      simp only [List.lookup_cons, List.mem_cons, Prod.mk.injEq]
      by_cases hg : g = k
      · subst hg
        simp only [beq_self_eq_true, if_true, Option.some.injEq, true_and]
        constructor
        · rintro rfl; exact .inl rfl
        · rintro (h | h)
          · exact h.symm
          · exact absurd ⟨_, h, rfl⟩ hn.1
      · have : (g == k) = false := by simpa using hg
        simp only [this, hg, false_and, false_or]
        exact ih hn.2
  exact key _ hk

theorem history_mem : ∀ {gs : List String} {h : List (Def Loaded)}, Shipped.history gs = some h →
    (∀ d ∈ h, ∃ g ∈ gs, ∃ ms, (g, ms) ∈ Shipped.registers ∧ ∃ m ∈ ms, m.define = some d) ∧
    ∀ g ∈ gs, ∃ ms, (g, ms) ∈ Shipped.registers ∧ ∀ m ∈ ms, ∃ d ∈ h, m.define = some d := by
  intro gs
  induction gs with
  | nil => intro h hh; simp only [Shipped.history, Option.some.injEq] at hh; subst hh; simp
  | cons g gs ih =>
    intro h hh
    simp only [Shipped.history] at hh
    split at hh
    · cases hh
    · rename_i ms hms
      split at hh
      · rename_i ds rest hds hrest
        cases hh
        obtain ⟨h1, h2⟩ := ih hrest
        obtain ⟨h3, h4⟩ := mapM_define hds
        have hreg := lookup_registers.1 hms
        constructor
        · intro d hd
          rcases List.mem_append.1 hd with hd | hd
          · exact ⟨g, List.mem_cons_self, ms, hreg, h3 d hd⟩
          · obtain ⟨g', hg', r⟩ := h1 d hd
            exact ⟨g', List.mem_cons_of_mem _ hg', r⟩
        · intro g' hg'
          rcases List.mem_cons.1 hg' with rfl | hg'
          · refine ⟨ms, hreg, fun m hm => ?_⟩
            obtain ⟨d, hd, e⟩ := h4 m hm
            exact ⟨d, List.mem_append_left _ hd, e⟩
          · obtain ⟨ms', hms', r⟩ := h2 g' hg'
            refine ⟨ms', hms', fun m hm => ?_⟩
            obtain ⟨d, hd, e⟩ := r m hm
            exact ⟨d, List.mem_append_right _ hd, e⟩
      · cases hh

/-- **C68** (start-up): the markers of all generators can be defined, whichever generators are chosen, in whichever order: start-up does not panic. -/
theorem C68_defined (gs : List String) (h : ∀ g ∈ gs, g ∈ ["crd", "rbac", "object", "applyconfiguration", "webhook", "schemapatch"]) :
    ∃ h, Shipped.history gs = some h := by
  induction gs with
  | nil => exact ⟨[], rfl⟩
  | cons g gs ih =>
    obtain ⟨rest, hrest⟩ := ih fun g hg => h g (List.mem_cons_of_mem _ hg)
    have hg : ∃ ms, (g, ms) ∈ Shipped.registers := by
      have := h g List.mem_cons_self
      have e : ["crd", "rbac", "object", "applyconfiguration", "webhook", "schemapatch"] = Shipped.registers.map (·.1) := rfl
      rw [e, List.mem_map] at this
      obtain ⟨⟨k, ms⟩, hm, rfl⟩ := this
      exact ⟨ms, hm⟩
    obtain ⟨ms, hms⟩ := hg
    obtain ⟨ds, hds⟩ := mapM_define_some (ms := ms) fun m hm => (table_one (Shipped.mem_table hms hm)).1
    exact ⟨ds ++ rest, by simp only [Shipped.history, lookup_registers.2 hms, hds, hrest]⟩

/-- What a lookup finds for the name of a marker of a chosen generator. -/
theorem found_marker {gs : List String} {h : List (Def Loaded)} (hh : Shipped.history gs = some h) {g : String} (hg : g ∈ gs) {ms : List Marker}
    (hms : (g, ms) ∈ Shipped.registers) {m : Marker} (hm : m ∈ ms) {r : Option (Def Loaded)} (hr : Found h m.name m.target r) : r = m.define := by
  obtain ⟨h1, h2⟩ := history_mem hh
  obtain ⟨ms', hms', hall⟩ := h2 g hg
  have : ms' = ms := by
    have e1 := lookup_registers.2 hms
    have e2 := lookup_registers.2 hms'
    rw [e1] at e2; exact (Option.some.inj e2).symm
  subst this
  obtain ⟨d, hd, hdef⟩ := hall m hm
  have hmt := Shipped.mem_table hms hm
  rcases hr with ⟨d', rfl, _, hn, ht, before, after, rfl, _⟩ | ⟨rfl, hv | hnever⟩
  · obtain ⟨g', _, ms'', hms'', m', hm', hdef'⟩ := h1 d' (by simp)
    obtain ⟨n1, n2⟩ := define_name hdef'
    have : m' = m := table_unique (Shipped.mem_table hms'' hm') hmt (n1.symm.trans hn) (n2.symm.trans ht)
    rw [← this, hdef']
  · exact absurd (table_one hmt).2.2.1 hv
  · exact absurd (define_name hdef) (hnever d hd)

theorem history_name {gs : List String} {h : List (Def Loaded)} (hh : Shipped.history gs = some h) {d : Def Loaded} (hd : d ∈ h) : ∃ m ∈ Shipped.table, m.define = some d := by
  obtain ⟨g, _, ms, hms, m, hm, e⟩ := (history_mem hh).1 d hd
  exact ⟨m, Shipped.mem_table hms hm, e⟩

/-- **C68** (lookup): with the markers of any list of generators registered, in whichever order, every marker of a chosen generator is found by its name alone, by its name with a
value, and by its name with any of its arguments, whatever the values are: no marker of another generator, and no other marker of this one, hides it. -/
theorem C68_recognised {gs : List String} {h : List (Def Loaded)} (hh : Shipped.history gs = some h) {g : String} (hg : g ∈ gs) {ms : List Marker}
    (hms : (g, ms) ∈ Shipped.registers) {m : Marker} (hm : m ∈ ms) :
    ∃ d, m.define = some d ∧ d.name = m.name ∧ d.target = m.target ∧
      (Registry.after h).lookup ('+' :: m.name) m.target = some d ∧
      (∀ v, (Registry.after h).lookup ('+' :: (m.name ++ '=' :: v)) m.target = some d) ∧
      ∀ a ∈ m.arguments, a ≠ [] → ∀ v, (Registry.after h).lookup ('+' :: (m.name ++ ':' :: (a ++ '=' :: v))) m.target = some d := by
  have hmt := Shipped.mem_table hms hm
  obtain ⟨⟨d, hd⟩, heq, hv, hargs⟩ := table_one hmt
  obtain ⟨n1, n2⟩ := define_name hd
  have fm : ∀ {r}, Found h m.name m.target r → r = some d := fun hr => (found_marker hh hg hms hm hr).trans hd
  refine ⟨d, hd, n1, n2, fm (C13_lookup_plain h m.name m.target heq), fun v => ?_, fun a ha hne v => ?_⟩
  · by_cases hc : ':' ∈ m.name
    · obtain ⟨pre, last, e, hl⟩ : ∃ pre last, m.name = pre ++ ':' :: last ∧ ':' ∉ last := last_colon hc
      have := (C13_lookup_field h pre last v m.target (e ▸ heq) hl).2
      rw [e]
      refine fm ?_
      rw [e]
      refine this fun hnever => ?_
      obtain ⟨ms', hms', hall⟩ := (history_mem hh).2 g hg
      have : ms' = ms := by
        have e1 := lookup_registers.2 hms
        have e2 := lookup_registers.2 hms'
        rw [e1] at e2; exact (Option.some.inj e2).symm
      subst this
      obtain ⟨d', hd', hdef⟩ := hall m hm
      obtain ⟨k1, k2⟩ := define_name hdef
      exact hnever d' hd' ⟨k1.trans e, k2⟩
    · exact fm (C13_lookup_value h m.name v m.target heq hc)
  · obtain ⟨h1, h2⟩ := hargs a ha hne
    have := (C13_lookup_field h m.name a v m.target (by simp [heq, h1]) h2).1
    have e : m.name ++ ':' :: (a ++ '=' :: v) = m.name ++ ':' :: a ++ '=' :: v := by simp
    rw [e]
    refine fm (this fun d' hd' hbad => ?_)
    obtain ⟨m', hm', hdef'⟩ := history_name hh hd'
    exact table_args hmt hm' ha hne ((define_name hdef').1.symm.trans hbad.1)

/-- **C68** (nothing else): what a lookup finds is a marker of a chosen generator, for the target that was asked for. -/
theorem C68_only {gs : List String} {h : List (Def Loaded)} (hh : Shipped.history gs = some h) {raw : Str} {t : Target} {d : Def Loaded}
    (hd : (Registry.after h).lookup ('+' :: raw) t = some d) :
    ∃ g ∈ gs, ∃ ms, (g, ms) ∈ Shipped.registers ∧ ∃ m ∈ ms, m.define = some d ∧ m.target = t ∧ m.name <+: raw := by
  have fin : ∀ {n : Str}, Found h n t (some d) → n <+: raw →
      ∃ g ∈ gs, ∃ ms, (g, ms) ∈ Shipped.registers ∧ ∃ m ∈ ms, m.define = some d ∧ m.target = t ∧ m.name <+: raw := by
    intro n hf hp
    rcases hf with ⟨d', e, _, hn, ht, before, after, rfl, _⟩ | ⟨e, _⟩
    · cases e
      obtain ⟨g, hg, ms, hms, m, hm, hdef⟩ := (history_mem hh).1 d (by simp)
      obtain ⟨k1, k2⟩ := define_name hdef
      exact ⟨g, hg, ms, hms, m, hm, hdef, k2.symm.trans ht, by rw [← k1, hn]; exact hp⟩
    · cases e
  rcases C13_forms raw with heq | ⟨name, v, rfl, h1, h2⟩ | ⟨pre, last, v, rfl, h1, h2⟩
  · exact fin (hd ▸ C13_lookup_plain h raw t heq) (List.prefix_refl _)
  · exact fin (hd ▸ C13_lookup_value h name v t h1 h2) ⟨_, rfl⟩
  · have := C13_lookup_field h pre last v t h1 h2
    simp only [hd] at this
    by_cases hn : NeverRegistered h (pre ++ ':' :: last) t
    · exact fin (this.1 hn) ⟨':' :: last ++ '=' :: v, by simp⟩
    · exact fin (this.2 hn) ⟨'=' :: v, rfl⟩

/-! ## Values -/

theorem parser_names {m : Marker} {d : Def Loaded} (h : m.define = some d) : (m.parser d).fields.map (·.name) = m.arguments := by
  simp [Marker.parser, Marker.arguments, h, Function.comp_def]

set_option maxRecDepth 100000 in
theorem nodup_table : (Shipped.table.all fun m => decide m.arguments.Nodup) = true := by decide +kernel

theorem showsArgs_head {E : Env} {D : Definition} {vals : List (Str × Value)} {y : Str} (h : ShowsArgs E D vals y) : ∃ a ∈ D.fields.map (·.name), a ≠ [] ∧ ∃ v, y = a ++ '=' :: v := by
  cases h with
  | one hf hi _ =>
    obtain ⟨c, r, e, _⟩ := hi.first
    exact ⟨_, List.mem_map_of_mem hf, by simp [e], _, rfl⟩
  | cons hf hi _ _ _ =>
    obtain ⟨c, r, e, _⟩ := hi.first
    exact ⟨_, List.mem_map_of_mem hf, by simp [e], _, by rw [List.append_assoc]; rfl⟩

theorem parse_plain {m : Marker} (hk : m.name ≠ "default".toList) {E : Env} {d : Def Loaded} {text : Str} : m.parse E d text = (m.parser d).parse E text := by
  unfold Marker.parse Marker.hook
  rw [if_neg (by simpa using hk)]

/-- **C68** (arguments): a marker of a chosen generator (except `default`, which has a syntax of its own), written `+name:a=x,b=y,…` with texts that denote values for its arguments, none twice and every required one, is found, and
parsing it yields these values. -/
theorem C68_values {gs : List String} {h : List (Def Loaded)} (hh : Shipped.history gs = some h) {g : String} (hg : g ∈ gs) {ms : List Marker}
    (hms : (g, ms) ∈ Shipped.registers) {m : Marker} (hm : m ∈ ms) {d : Def Loaded} (hd : m.define = some d) (hk : m.name ≠ "default".toList) {E : Env} {vals : List (Str × Value)} {y : Str}
    (hv : (vals.map (·.1)).Nodup) (hy : ShowsArgs E (m.parser d) vals y) (hreq : ∀ f ∈ (m.parser d).fields, f.optional = false → f.name ∈ vals.map (·.1)) :
    (Registry.after h).lookup ('+' :: (m.name ++ ':' :: y)) m.target = some d ∧ m.parse E d ('+' :: (m.name ++ ':' :: y)) = .ok vals := by
  have hmt := Shipped.mem_table hms hm
  obtain ⟨a, ha, hne, v, rfl⟩ := showsArgs_head hy
  rw [parser_names hd] at ha
  obtain ⟨d', hd', _, _, _, _, h3⟩ := C68_recognised hh hg hms hm
  rw [hd] at hd'; cases hd'
  rw [parse_plain hk]
  refine ⟨h3 a ha hne v, C14_named (table_one hmt).2.1 ?_ hv hy fun _ => hreq⟩
  rw [parser_names hd]
  exact of_decide_eq_true (List.all_eq_true.1 nodup_table m hmt)

/-- **C68** (values): a marker of a chosen generator whose value has no name, written `+name=x` with a text that denotes a value, is found, and parsing it yields this value. -/
theorem C68_value {gs : List String} {h : List (Def Loaded)} (hh : Shipped.history gs = some h) {g : String} (hg : g ∈ gs) {ms : List Marker}
    (hms : (g, ms) ∈ Shipped.registers) {m : Marker} (hm : m ∈ ms) {d : Def Loaded} (hd : m.define = some d) (hk : m.name ≠ "default".toList) {E : Env} {f : Field} {v : Value} {x : Str}
    (hf : (m.parser d).fields = [f]) (hn : f.name = []) (hx : ShowsArg E f.arg v x) :
    (Registry.after h).lookup ('+' :: (m.name ++ '=' :: x)) m.target = some d ∧ m.parse E d ('+' :: (m.name ++ '=' :: x)) = .ok [([], v)] := by
  have hmt := Shipped.mem_table hms hm
  obtain ⟨d', hd', _, _, _, h2, _⟩ := C68_recognised hh hg hms hm
  rw [hd] at hd'; cases hd'
  rw [parse_plain hk]
  exact ⟨h2 x, C14_anonymous hf hn (table_one hmt).2.1 hx⟩

/-- **C68** (`default`): the marker `default` of a chosen generator, written `+default=x`, is found, and its value is the JSON text `x`, if this is JSON; a reference to a constant is accepted too. -/
theorem C68_default {gs : List String} {h : List (Def Loaded)} (hh : Shipped.history gs = some h) {g : String} (hg : g ∈ gs) {ms : List Marker}
    (hms : (g, ms) ∈ Shipped.registers) {m : Marker} (hm : m ∈ ms) {d : Def Loaded} (hd : m.define = some d) (hk : m.name = "default".toList) {E : Env} (x : Str) :
    (Registry.after h).lookup ('+' :: ("default".toList ++ '=' :: x)) m.target = some d ∧
      ((∃ v, Json.unmarshal ⟨E.round, fun _ => []⟩ x = some v) ∨ "ref(".toList <+: Doc.trimSpace x → m.parse E d ('+' :: ("default".toList ++ '=' :: x)) = .ok [("value".toList, .raw x)]) ∧
      (¬ ((∃ v, Json.unmarshal ⟨E.round, fun _ => []⟩ x = some v) ∨ "ref(".toList <+: Doc.trimSpace x) → ∃ e, m.parse E d ('+' :: ("default".toList ++ '=' :: x)) = .error e) := by
  obtain ⟨d', hd', _, _, _, h2, _⟩ := C68_recognised hh hg hms hm
  rw [hd] at hd'; cases hd'
  have hs : splitMarker ('+' :: ("default".toList ++ '=' :: x)) = ("default".toList, "default".toList, x) :=
    splitMarker_nocolon (by decide) (by decide)
  have hhk : m.hook = true := by simp only [Marker.hook, hk, decide_true]
  have hp : ∀ r, Json.parseDefault ⟨E.round, fun _ => []⟩ x = r → m.parse E d ('+' :: ("default".toList ++ '=' :: x)) = match r with
      | none => .error .extra
      | some _ => .ok [("value".toList, .raw x)] := by
    rintro r rfl
    unfold Marker.parse Json.kubernetesDefault
    rw [if_pos hhk, hs]
    cases Json.parseDefault ⟨E.round, fun _ => []⟩ x <;> rfl
  refine ⟨hk ▸ h2 x, fun hj => ?_, fun hj => ?_⟩
  · by_cases hr : "ref(".toList.isPrefixOf (Doc.trimSpace x) = true
    · exact hp (some .null) (by unfold Json.parseDefault; rw [if_pos hr])
    · obtain ⟨v, hv⟩ := hj.resolve_right fun h => hr (List.isPrefixOf_iff_prefix.2 h)
      exact hp (some v) (by unfold Json.parseDefault; rw [if_neg hr, hv])
  · rw [not_or] at hj
    refine ⟨.extra, hp none ?_⟩
    unfold Json.parseDefault
    rw [if_neg fun hr => hj.2 (List.isPrefixOf_iff_prefix.1 hr)]
    cases hu : Json.unmarshal ⟨E.round, fun _ => []⟩ x with
    | none => rfl
    | some v => exact absurd ⟨v, hu⟩ hj.1

set_option maxRecDepth 100000 in
theorem fields_table : (Shipped.table.all fun m => match m.output, m.define with
    | .struct fs, some d => fs.all fun f => decide (f.exported = true) && d.payload.fieldNames.any fun e => decide (e.2 = f.name) && d.payload.fields.any fun x => decide (x.1 = e.1)
    | _, _ => true) = true := by decide +kernel

/-- **C68** (every field can be set): each field of the Go type of a marker has an argument of the marker whose value is stored in it. -/
theorem C68_fields {g : String} {ms : List Marker} (hms : (g, ms) ∈ Shipped.registers) {m : Marker} (hm : m ∈ ms) {fs : List StructField} (ho : m.output = .struct fs) {f : StructField} (hf : f ∈ fs)
    {d : Def Loaded} (hd : m.define = some d) : ∃ a ∈ m.arguments, (a, f.name) ∈ d.payload.fieldNames := by
  have h := List.all_eq_true.1 fields_table m (Shipped.mem_table hms hm)
  rw [ho, hd] at h
  have h := List.all_eq_true.1 h f hf
  simp only [Bool.and_eq_true, decide_eq_true_eq, List.any_eq_true] at h
  obtain ⟨_, ⟨n, g'⟩, he, rfl, x, hx, rfl⟩ := h
  exact ⟨x.1, by simp only [Marker.arguments, hd, Option.map_some, Option.getD_some]; exact List.mem_map_of_mem hx, he⟩

set_option maxRecDepth 100000 in
theorem plain_table : (Shipped.table.all fun m => match m.output, m.anyType, m.define with
    | .struct _, false, _ => true
    | _, _, some d => decide ((m.parser d).fields.map (fun f => (f.name, f.optional)) = [([], m.optional)])
    | _, _, none => false) = true := by decide +kernel

/-- **C68** (values without a name): a marker whose Go type is not a struct, or that takes any value, has exactly one argument, without a name, which may be left out if and only if the marker is declared so. -/
theorem C68_anonymous {g : String} {ms : List Marker} (hms : (g, ms) ∈ Shipped.registers) {m : Marker} (hm : m ∈ ms) (ho : (∃ t, m.output = .plain t) ∨ m.anyType = true)
    {d : Def Loaded} (hd : m.define = some d) : ∃ f, (m.parser d).fields = [f] ∧ f.name = [] ∧ f.optional = m.optional := by
  have h := List.all_eq_true.1 plain_table m (Shipped.mem_table hms hm)
  have h : (m.parser d).fields.map (fun f => (f.name, f.optional)) = [([], m.optional)] := by
    rcases ho with ⟨t, ht⟩ | ha
    · rw [ht, hd] at h; exact of_decide_eq_true h
    · rw [ha, hd] at h
      cases ho : m.output with
      | plain t => rw [ho] at h; exact of_decide_eq_true h
      | struct fs => rw [ho] at h; exact of_decide_eq_true h
  cases hf : (m.parser d).fields with
  | nil => rw [hf] at h; simp at h
  | cons f l =>
    rw [hf] at h
    simp only [List.map_cons, List.cons.injEq, Prod.mk.injEq, List.map_eq_nil_iff] at h
    obtain ⟨⟨h1, h2⟩, rfl⟩ := h
    exact ⟨f, rfl, h1, h2⟩

/-! ## Examples -/

namespace ShippedExample

/-- All generators at once. -/
example : ∃ h, Shipped.history ["object", "crd", "webhook", "rbac", "applyconfiguration"] = some h := C68_defined _ (by decide)

/-- `+kubebuilder:printcolumn:…`. -/
def column : Marker := ⟨"kubebuilder:printcolumn".toList, .type, .struct [sf "Name" .string, sf "Type" .string, sf "JSONPath" .string (some "JSONPath"), sf "Description" .string Shipped.opt,
  sf "Format" .string Shipped.opt, sf "Priority" .int32 Shipped.opt], false, false⟩

theorem column_mem : column ∈ Shipped.allDefinitions := by decide +kernel

theorem column_parser : column.define.map column.parser = some ⟨[⟨"name".toList, .str, false⟩, ⟨"type".toList, .str, false⟩, ⟨"JSONPath".toList, .str, false⟩,
    ⟨"description".toList, .str, true⟩, ⟨"format".toList, .str, true⟩, ⟨"priority".toList, .int true, true⟩], true⟩ := by decide +kernel

/-- Its required arguments are `name`, `type` and `JSONPath`; the hypotheses of `C68_values` hold of `name=Age,type=date,JSONPath=.x`. -/
example (E : Env) : ∃ d, column.define = some d ∧
    ShowsArgs E (column.parser d) [("name".toList, .str "Age".toList), ("type".toList, .str "date".toList), ("JSONPath".toList, .str ".x".toList)] "name=Age,type=date,JSONPath=.x".toList ∧
    ∀ f ∈ (column.parser d).fields, f.optional = false → f.name ∈ ["name".toList, "type".toList, "JSONPath".toList] := by
  have hp := column_parser
  rw [Option.map_eq_some_iff] at hp
  obtain ⟨d, hd, e⟩ := hp
  refine ⟨d, hd, ?_, ?_⟩
  · rw [e]
    refine .cons (f := ⟨"name".toList, .str, false⟩) (x := "Age".toList) (w := []) (by simp) ⟨⟨_, _, rfl, by decide⟩, by decide⟩
      (.value (.str (.word ⟨⟨_, _, rfl, by decide⟩, by decide⟩ (by decide) (by decide)))) (by simp [Spaces]) ?_
    refine .cons (f := ⟨"type".toList, .str, false⟩) (x := "date".toList) (w := []) (by simp) ⟨⟨_, _, rfl, by decide⟩, by decide⟩
      (.value (.str (.word ⟨⟨_, _, rfl, by decide⟩, by decide⟩ (by decide) (by decide)))) (by simp [Spaces]) ?_
    exact .one (f := ⟨"JSONPath".toList, .str, false⟩) (x := ".x".toList) (by simp) ⟨⟨_, _, rfl, by decide⟩, by decide⟩
      (.value (.str (.bare ⟨by decide, by decide, by decide, by decide⟩)))
  · rw [e]
    decide

/-- A marker without a name for its value. -/
def maximum : Marker := ⟨"kubebuilder:validation:items:Maximum".toList, .field, .plain .float64, false, false⟩

example : maximum ∈ Shipped.allDefinitions := by decide +kernel
example : maximum.define.map (fun d => (maximum.parser d).fields) = some [⟨[], .num, false⟩] := by decide +kernel

/-- A marker of another target is not found: `+kubebuilder:validation:Maximum=1` on a package. -/
example : (Shipped.history ["crd"]).map (fun h => ((Registry.after h).lookup "+kubebuilder:validation:Maximum=1".toList .package).isSome) = some false := by decide +kernel

end ShippedExample

end Verif.Markers

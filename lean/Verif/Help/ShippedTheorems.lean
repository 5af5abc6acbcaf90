import Verif.Help.Shipped
import Verif.Help.PrettyTheorems
import Verif.Help.DetailTheorems
import Verif.Markers.ShippedTheorems
/-!
# C90: the help of controller-gen explains the markers of the generators
-/
namespace Verif.Help
open Spec Shipped
open Markers (Str Def Target Marker Loaded)

namespace Spec

/-- What a user expects of the entry for a marker: its name, target and arguments, a category and a summary. -/
structure EntryFor (m : Marker) (doc : MarkerDoc) : Prop where
  name : doc.name = m.name
  target : doc.target = targetName m.target
  arguments : ∀ n, (∃ f ∈ doc.fields, f.name = n) ↔ n ∈ m.arguments
  category : doc.category ≠ []
  summary : doc.text.summary ≠ []

/-- Every argument that has a name is described. -/
def Described (doc : MarkerDoc) : Prop := ∀ f ∈ doc.fields, f.name ≠ [] → f.text.summary ≠ []

end Spec

/-! ## The calls -/

/-- The generators with what they register. -/
def Shipped.sections : List (String × List Shipped.Entry) := [
  ("crd", crdEntries), ("rbac", rbacEntries), ("object", objectEntries), ("applyconfiguration", applyEntries), ("webhook", webhookEntries), ("schemapatch", crdEntries)]

def Shipped.table : List Shipped.Entry := crdEntries ++ rbacEntries ++ objectEntries ++ applyEntries ++ webhookEntries

theorem mem_oneByOne {es : List Shipped.Entry} {x : Op} : x ∈ oneByOne es ↔ ∃ e ∈ es, x ∈ e.register ∨ x = e.addHelp := by
  simp [oneByOne]

theorem mem_thenHelp {es : List Shipped.Entry} {x : Op} : x ∈ thenHelp es ↔ ∃ e ∈ es, x ∈ e.register ∨ x = e.addHelp := by
  simp only [thenHelp, List.mem_append, List.mem_flatMap, List.mem_map]
  constructor
  · rintro (⟨e, he, h⟩ | ⟨e, he, rfl⟩)
    · exact ⟨e, he, .inl h⟩
    · exact ⟨e, he, .inr rfl⟩
  · rintro ⟨e, he, h | rfl⟩
    · exact .inl ⟨e, he, h⟩
    · exact .inr ⟨e, he, rfl⟩

theorem mem_registers {g : String} {l : List Op} (h : (g, l) ∈ Shipped.registers) : ∃ es, (g, es) ∈ sections ∧ ∀ x, x ∈ l ↔ ∃ e ∈ es, x ∈ e.register ∨ x = e.addHelp := by
  simp only [Shipped.registers, List.mem_cons, List.not_mem_nil, or_false, Prod.mk.injEq] at h
  rcases h with ⟨rfl, rfl⟩ | ⟨rfl, rfl⟩ | ⟨rfl, rfl⟩ | ⟨rfl, rfl⟩ | ⟨rfl, rfl⟩ | ⟨rfl, rfl⟩
  · exact ⟨_, by simp [sections], fun x => mem_oneByOne⟩
  · exact ⟨_, by simp [sections], fun x => mem_thenHelp⟩
  · exact ⟨_, by simp [sections], fun x => mem_thenHelp⟩
  · exact ⟨_, by simp [sections], fun x => mem_thenHelp⟩
  · exact ⟨_, by simp [sections], fun x => mem_thenHelp⟩
  · exact ⟨_, by simp [sections], fun x => mem_oneByOne⟩

theorem names_distinct : (sections.map (·.1)).Nodup := by decide

theorem mem_sections_unique {g : String} {a b : List Shipped.Entry} (ha : (g, a) ∈ sections) (hb : (g, b) ∈ sections) : a = b := by
  exact GoMap.wf_unique (m := sections) names_distinct ha hb

theorem lookup_mem {α : Type} {l : List (String × α)} {g : String} {x : α} (h : l.lookup g = some x) : (g, x) ∈ l := by
  induction l with
  | nil => cases h
  | cons e l ih =>
    obtain ⟨k, v⟩ := e
    rw [List.lookup_cons] at h
    split at h
    · rename_i hk
      cases h
      rw [eq_of_beq hk]; simp
    · exact List.mem_cons_of_mem _ (ih h)

theorem mem_calls : ∀ {gs : List String} {ops : List Op}, calls gs = some ops → ∀ x, x ∈ ops ↔ ∃ g ∈ gs, ∃ es, (g, es) ∈ sections ∧ ∃ e ∈ es, x ∈ e.register ∨ x = e.addHelp
  | [], ops, h, x => by cases h; simp
  | g :: gs, ops, h, x => by
    rw [calls] at h
    split at h
    · rename_i l rest hl hr
      cases h
      obtain ⟨es, hes, hx⟩ := mem_registers (lookup_mem hl)
      rw [List.mem_append, hx, mem_calls hr]
      constructor
      · rintro (⟨e, he, h⟩ | ⟨g', hg, h⟩)
        · exact ⟨g, by simp, es, hes, e, he, h⟩
        · exact ⟨g', by simp [hg], h⟩
      · rintro ⟨g', hg, es', hes', h⟩
        rcases List.mem_cons.1 hg with rfl | hg
        · rw [mem_sections_unique hes' hes] at h; exact .inl h
        · exact .inr ⟨g', hg, es', hes', h⟩
    · cases h

theorem sections_table {g : String} {es : List Shipped.Entry} (h : (g, es) ∈ sections) : ∀ e ∈ es, e ∈ table := by
  simp only [sections, List.mem_cons, List.not_mem_nil, or_false, Prod.mk.injEq] at h
  intro e he
  simp only [table, List.mem_append]
  rcases h with ⟨_, rfl⟩ | ⟨_, rfl⟩ | ⟨_, rfl⟩ | ⟨_, rfl⟩ | ⟨_, rfl⟩ | ⟨_, rfl⟩ <;> simp [he]

/-! ## The table -/

set_option maxRecDepth 100000 in
theorem ptrs_distinct : (table.map (·.ptr)).Nodup := by decide +kernel

/-- What is checked of each entry. -/
def checkEntry (e : Shipped.Entry) : Bool :=
  e.help.category != [] && e.help.text.summary != [] && decide ((e.help.fieldHelp.map (·.1)).Nodup) &&
  (match e.marker.define with
  | none => false
  | some d => decide ((d.payload.fields.map (·.1)).Nodup) && decide ((d.payload.fieldNames.map (·.1)).Nodup) && decide (d.payload.fieldNames.map (·.1) = d.payload.fields.map (·.1)))

set_option maxRecDepth 100000 in
theorem checkEntry_table : table.all checkEntry = true := by decide +kernel

/-- The arguments that are described by their field's help. -/
def checkArgs (e : Shipped.Entry) : Bool :=
  match e.marker.define with
  | none => false
  | some d => d.payload.fieldNames.all fun n => n.1 == [] || (GoMap.get e.help.fieldHelp n.2).any fun t => t.summary != []

/-- The markers without descriptions of arguments. -/
def terse (e : Shipped.Entry) : Bool :=
  e.marker.name == "kubebuilder:validation:XValidation".toList || e.marker.name == "kubebuilder:validation:items:XValidation".toList || e.marker.name == "default".toList || e.ptr == 3000

set_option maxRecDepth 100000 in
theorem checkArgs_table : table.all (fun e => checkArgs e != terse e) = true := by decide +kernel

set_option maxRecDepth 100000 in
theorem sections_markers : sections.map (fun s => (s.1, s.2.map (·.marker))) = Markers.Shipped.registers := by decide +kernel

/-! ## What is registered -/

theorem mem_registrations {ops : List Op} {d : Def Info} : d ∈ registrations ops ↔ Op.register d ∈ ops := by
  induction ops with
  | nil => simp [registrations]
  | cons x ops ih => cases x <;> simp [registrations, ih]

/-- The definition that an entry is registered as. -/
def IsOf (d : Def Info) (e : Shipped.Entry) : Prop := ∃ d0, e.marker.define = some d0 ∧ d = ⟨d0.name, d0.target, ⟨e.ptr, d0.payload⟩⟩

theorem mem_register {e : Shipped.Entry} {x : Op} : x ∈ e.register ↔ ∃ d, IsOf d e ∧ x = .register d := by
  unfold Shipped.Entry.register IsOf
  cases h : e.marker.define with
  | none => simp
  | some d0 => simp

theorem entry_ok {e : Shipped.Entry} (he : e ∈ table) : e.help.category ≠ [] ∧ e.help.text.summary ≠ [] ∧ (e.help.fieldHelp.map (·.1)).Nodup ∧
    ∃ d, e.marker.define = some d ∧ (d.payload.fields.map (·.1)).Nodup ∧ (d.payload.fieldNames.map (·.1)).Nodup ∧ d.payload.fieldNames.map (·.1) = d.payload.fields.map (·.1) := by
  have h := List.all_eq_true.1 checkEntry_table e he
  simp only [checkEntry, Bool.and_eq_true, bne_iff_ne, ne_eq, decide_eq_true_eq] at h
  obtain ⟨⟨⟨h1, h2⟩, h3⟩, h4⟩ := h
  refine ⟨h1, h2, h3, ?_⟩
  split at h4
  · cases h4
  · rename_i d hd
    simp only [Bool.and_eq_true, decide_eq_true_eq] at h4
    exact ⟨d, hd, h4.1.1, h4.1.2, h4.2⟩

theorem ptr_unique {e e' : Shipped.Entry} (h : e ∈ table) (h' : e' ∈ table) (hp : e.ptr = e'.ptr) : e = e' := by
  have := ptrs_distinct
  revert h h' this
  generalize table = l
  intro h h' this
  induction l with
  | nil => cases h
  | cons a l ih =>
    rw [List.map_cons, List.nodup_cons] at this
    rcases List.mem_cons.1 h with rfl | h1 <;> rcases List.mem_cons.1 h' with rfl | h2
    · rfl
    · exact absurd (List.mem_map.2 ⟨_, h2, hp.symm⟩) this.1
    · exact absurd (List.mem_map.2 ⟨_, h1, hp⟩) this.1
    · exact ih h1 h2 this.2

variable {gs : List String} {ops : List Op}

theorem registered_entry (h : calls gs = some ops) {d : Def Info} (hr : Registered ops d) : ∃ g ∈ gs, ∃ es, (g, es) ∈ sections ∧ ∃ e ∈ es, IsOf d e := by
  obtain ⟨-, -, -, b, a, he, -⟩ := hr
  have hm : Op.register d ∈ ops := mem_registrations.1 (by rw [he]; simp)
  obtain ⟨g, hg, es, hes, e, hee, h | h⟩ := (mem_calls h _).1 hm
  · obtain ⟨d', hd', h⟩ := mem_register.1 h
    cases h
    exact ⟨g, hg, es, hes, e, hee, hd'⟩
  · cases h

theorem help_entry (h : calls gs = some ops) {g : String} (hg : g ∈ gs) {es : List Shipped.Entry} (hes : (g, es) ∈ sections) {e : Shipped.Entry} (he : e ∈ es) {d : Def Info} (hd : IsOf d e) {o : Option DefHelp}
    (ho : HelpOf ops d o) : o = some e.help := by
  obtain ⟨d0, -, rfl⟩ := hd
  have hadd : Op.addHelp e.ptr e.help ∈ ops := (mem_calls h _).2 ⟨g, hg, es, hes, e, he, .inr rfl⟩
  cases o with
  | none => exact absurd hadd (ho _)
  | some x =>
    obtain ⟨b, a, hx, -⟩ := ho
    have hm : Op.addHelp e.ptr x ∈ ops := by rw [hx]; simp
    obtain ⟨g', -, es', hes', e', he', h' | h'⟩ := (mem_calls h _).1 hm
    · obtain ⟨_, -, h'⟩ := mem_register.1 h'
      cases h'
    · simp only [Shipped.Entry.addHelp, Op.addHelp.injEq] at h'
      obtain ⟨h1, h2⟩ := h'
      rw [ptr_unique (sections_table hes e he) (sections_table hes' e' he') h1, h2]

theorem calls_wellMade (h : calls gs = some ops) (d : Def Info) (hr : Registered ops d) : WellMade d := by
  obtain ⟨g, -, es, hes, e, he, d0, h0, rfl⟩ := registered_entry h hr
  obtain ⟨-, -, -, d', hd', h1, h2, h3⟩ := entry_ok (sections_table hes e he)
  rw [h0] at hd'
  cases hd'
  exact ⟨h1, h2, fun n hn => h3 ▸ hn⟩

theorem calls_helpWF (h : calls gs = some ops) : HelpWF ops := by
  intro p x hx
  obtain ⟨g, -, es, hes, e, he, h' | h'⟩ := (mem_calls h _).1 hx
  · obtain ⟨_, -, h'⟩ := mem_register.1 h'
    cases h'
  · simp only [Shipped.Entry.addHelp, Op.addHelp.injEq] at h'
    obtain ⟨h1, h2⟩ := h'
    rw [h2]
    exact (entry_ok (sections_table hes e he)).2.2.1

theorem inGroup_category {d : Def Info} {h : DefHelp} {g : Str} (x : InGroup .byCategory d (some h) g) : g = h.category := by
  cases x; rfl

/-- The last one of a kind. -/
theorem exists_last {α : Type} {p : α → Prop} : ∀ {l : List α}, (∃ x ∈ l, p x) → ∃ x b a, l = b ++ x :: a ∧ p x ∧ ∀ y ∈ a, ¬ p y
  | [], h => by obtain ⟨_, h, -⟩ := h; cases h
  | x :: l, h => by
    by_cases hl : ∃ y ∈ l, p y
    · obtain ⟨y, b, a, h1, h2, h3⟩ := exists_last hl
      exact ⟨y, x :: b, a, by rw [h1]; rfl, h2, h3⟩
    · obtain ⟨y, hy, hp⟩ := h
      rcases List.mem_cons.1 hy with rfl | hy
      · exact ⟨y, [], l, rfl, hp, fun z hz hz' => hl ⟨z, hz, hz'⟩⟩
      · exact absurd ⟨y, hy, hp⟩ hl

/-- A marker of a generator that is chosen has an entry: that of the last chosen generator that has it. -/
theorem documented (σ : Sched) (h : calls gs = some ops) {g : String} (hg : g ∈ gs) {ms : List Marker} (hms : (g, ms) ∈ Markers.Shipped.registers) {m : Marker} (hm : m ∈ ms) :
    ∃ c ∈ byCategory σ (HelpRegistry.after ops) .byCategory, ∃ doc ∈ c.markers, c.category ≠ [] ∧ EntryFor m doc ∧ ∃ g' ∈ gs, ∃ es, (g', es) ∈ sections ∧ ∃ e ∈ es, e.marker = m ∧
      ∃ d, IsOf d e ∧ Documents doc d (some e.help) := by
  rw [← sections_markers] at hms
  obtain ⟨⟨g0, es⟩, hes, he⟩ := List.mem_map.1 hms
  obtain ⟨h8, h9⟩ := Prod.mk.inj he
  dsimp only at h8 h9
  subst h8 h9
  obtain ⟨e, he, rfl⟩ := List.mem_map.1 hm
  obtain ⟨-, -, -, d0, hd0, -⟩ := entry_ok (sections_table hes e he)
  have hin : (⟨d0.name, d0.target, ⟨e.ptr, d0.payload⟩⟩ : Def Info) ∈ registrations ops :=
    mem_registrations.2 ((mem_calls h _).2 ⟨g0, hg, es, hes, e, he, .inl (mem_register.2 ⟨_, ⟨d0, hd0, rfl⟩, rfl⟩)⟩)
  obtain ⟨d, b, a, h1, ⟨h2, h3⟩, h4⟩ := exists_last (p := fun d : Def Info => d.name = d0.name ∧ d.target = d0.target) ⟨_, hin, rfl, rfl⟩
  obtain ⟨hn, ht⟩ := Markers.define_name hd0
  have hes' : e.marker ∈ Markers.Shipped.table := Markers.Shipped.mem_table (g := g0) (by rw [← sections_markers]; exact hms) hm
  have hvalid : Markers.Spec.Valid d.target := by rw [h3, ht]; exact (Markers.table_one hes').2.2.1
  have hreg : Registered ops d := ⟨hvalid, rfl, rfl, b, a, h1, by rw [h2, h3]; exact h4⟩
  obtain ⟨g', hg', es', hes2, e', he', hd⟩ := registered_entry h hreg
  obtain ⟨ds, -, hds, hall⟩ := (C46_lists σ ops .byCategory (calls_wellMade h) (calls_helpWF h)).once
  obtain ⟨⟨cat, doc⟩, hx, o, ho, hgrp, hdoc⟩ := hall.exists_left ((hds d).2 hreg)
  obtain rfl := help_entry h hg' hes2 he' hd ho
  obtain ⟨c, hc, hx⟩ := List.mem_flatMap.1 hx
  obtain ⟨doc', hdoc', hx⟩ := List.mem_map.1 hx
  cases hx
  obtain ⟨k1, k2, -, d1, hd1, -, -, k3⟩ := entry_ok (sections_table hes2 e' he')
  have hme : e'.marker = e.marker := by
    obtain ⟨d1', hd1', rfl⟩ := hd
    obtain ⟨hn', ht'⟩ := Markers.define_name hd1'
    have hm' : e'.marker ∈ Markers.Shipped.table :=
      Markers.Shipped.mem_table (g := g') (ms := es'.map (·.marker)) (by rw [← sections_markers]; exact List.mem_map.2 ⟨_, hes2, rfl⟩) (List.mem_map.2 ⟨e', he', rfl⟩)
    exact Markers.table_unique hm' hes' (hn'.symm.trans (h2.trans hn)) (ht'.symm.trans (h3.trans ht))
  have hcat : c.category = e'.help.category := inGroup_category hgrp
  refine ⟨c, hc, doc, hdoc', by rw [hcat]; exact k1, ⟨?_, ?_, ?_, ?_, ?_⟩, g', hg', es', hes2, e', he', hme, d, hd, hdoc⟩
  · rw [hdoc.name, h2, hn]
  · rcases hdoc.target with ⟨h5, h6⟩ | ⟨h5, h6⟩ | ⟨h5, h6⟩ <;> rw [h6, ← ht, ← h3, h5] <;> rfl
  · intro n
    rw [hdoc.fields]
    obtain ⟨d1', hd1', rfl⟩ := hd
    rw [hd1] at hd1'
    cases hd1'
    rw [← hme]
    unfold Marker.arguments
    simp only [hd1, Option.map_some, Option.getD_some, ← k3]
    simp
  · rw [(hdoc.given _ rfl).2.1]; exact k1
  · rw [(hdoc.given _ rfl).1]; exact k2

/-- **C90** (listed).  Whichever generators are chosen, in whichever order: each marker of each of them has a line in the help for markers, with its use, its target, and a summary that is not empty, in a category with a name;
and an entry in the JSON. -/
theorem C90_listed (σ : Sched) (h : calls gs = some ops) : ∃ out, helpForLevels σ 1 (HelpRegistry.after ops) .byCategory = some (.text out) ∧
    ∃ cats, helpForLevels σ 4 (HelpRegistry.after ops) .byCategory = some (.json cats) ∧
    ∀ g ∈ gs, ∀ ms, (g, ms) ∈ Markers.Shipped.registers → ∀ m ∈ ms, ∃ doc, EntryFor m doc ∧ (∃ c ∈ cats, doc ∈ c.markers) ∧ ∃ j k, Contains (visible out)
      (syntaxText doc ++ List.replicate (j + 2) ' ' ++ targetName m.target ++ List.replicate (k + 2) ' ' ++ summaryText doc) := by
  obtain ⟨out, h1, h2⟩ := C46_shown σ (HelpRegistry.after ops) .byCategory
  refine ⟨out, h1, _, C46_json _ _ _, fun g hg ms hms m hm => ?_⟩
  obtain ⟨c, hc, doc, hdoc, hne, he, -⟩ := documented σ h hg hms hm
  obtain ⟨j, k, h3⟩ := h2 c hc hne doc hdoc
  rw [he.target] at h3
  exact ⟨doc, he, ⟨c, hc, hdoc⟩, j, k, h3⟩

/-- What is shown is for a definition that is registered, with its entry. -/
theorem shown_entry (σ : Sched) (h : calls gs = some ops) {c : CategoryDoc} (hc : c ∈ byCategory σ (HelpRegistry.after ops) .byCategory) {doc : MarkerDoc} (hdoc : doc ∈ c.markers) :
    ∃ g ∈ gs, ∃ es, (g, es) ∈ sections ∧ ∃ e ∈ es, ∃ d, Registered ops d ∧ IsOf d e ∧ c.category = e.help.category ∧ Documents doc d (some e.help) := by
  obtain ⟨ds, -, hds, hall⟩ := (C46_lists σ ops .byCategory (calls_wellMade h) (calls_helpWF h)).once
  obtain ⟨d, hd, o, ho, hgrp, hdocs⟩ := hall.exists_right (List.mem_flatMap.2 ⟨c, hc, List.mem_map.2 ⟨doc, hdoc, rfl⟩⟩)
  obtain ⟨g, hg, es, hes, e, he, hof⟩ := registered_entry h ((hds d).1 hd)
  obtain rfl := help_entry h hg hes he hof ho
  exact ⟨g, hg, es, hes, e, he, d, (hds d).1 hd, hof, inGroup_category hgrp, hdocs⟩

/-- What the documentation of an entry says. -/
theorem entryFor {e : Shipped.Entry} (he : e ∈ table) {d : Def Info} (hd : IsOf d e) {doc : MarkerDoc} (hdoc : Documents doc d (some e.help)) : EntryFor e.marker doc := by
  obtain ⟨k1, k2, -, d1, hd1, -, -, k3⟩ := entry_ok he
  obtain ⟨d0, hd0, rfl⟩ := hd
  rw [hd1] at hd0
  cases hd0
  obtain ⟨hn, ht⟩ := Markers.define_name hd1
  refine ⟨?_, ?_, ?_, ?_, ?_⟩
  · rw [hdoc.name, hn]
  · rcases hdoc.target with ⟨h5, h6⟩ | ⟨h5, h6⟩ | ⟨h5, h6⟩ <;> rw [h6, ← ht] <;> dsimp only at h5 <;> rw [h5] <;> rfl
  · intro n
    rw [hdoc.fields]
    unfold Marker.arguments
    simp only [hd1, Option.map_some, Option.getD_some, ← k3]
    simp
  · rw [(hdoc.given _ rfl).2.1]; exact k1
  · rw [(hdoc.given _ rfl).1]; exact k2

/-- **C90** (nothing else).  What the help lists are markers of the generators that are chosen, each in the category that it names. -/
theorem C90_only (σ : Sched) (h : calls gs = some ops) : ∃ cats, helpForLevels σ 4 (HelpRegistry.after ops) .byCategory = some (.json cats) ∧
    ∀ c ∈ cats, ∀ doc ∈ c.markers, doc.category = c.category ∧ ∃ g ∈ gs, ∃ ms, (g, ms) ∈ Markers.Shipped.registers ∧ ∃ m ∈ ms, EntryFor m doc := by
  refine ⟨_, C46_json _ _ _, fun c hc doc hdoc => ?_⟩
  obtain ⟨g, hg, es, hes, e, he, d, -, hof, hcat, hd⟩ := shown_entry σ h hc hdoc
  refine ⟨by rw [hcat, (hd.given _ rfl).2.1], g, hg, es.map (·.marker), ?_, e.marker, List.mem_map.2 ⟨e, he, rfl⟩, entryFor (sections_table hes e he) hof hd⟩
  rw [← sections_markers]
  exact List.mem_map.2 ⟨_, hes, rfl⟩

set_option maxRecDepth 100000 in
theorem ptr_resource : table.all (fun e => e.ptr != 3000 || e.marker.name == "kubebuilder:resource".toList) = true ∧
    (crdEntries ++ rbacEntries ++ objectEntries ++ webhookEntries).all (fun e => e.ptr != 3000) = true := by decide +kernel

/-- **C90** (arguments).  The arguments of the markers are described, other than those of `XValidation`, `default` and, with `applyconfiguration`, of `resource`. -/
theorem C90_arguments_partial (σ : Sched) (h : calls gs = some ops) : ∃ cats, helpForLevels σ 4 (HelpRegistry.after ops) .byCategory = some (.json cats) ∧
    ∀ c ∈ cats, ∀ doc ∈ c.markers, doc.name ≠ "kubebuilder:validation:XValidation".toList → doc.name ≠ "kubebuilder:validation:items:XValidation".toList → doc.name ≠ "default".toList →
      (doc.name = "kubebuilder:resource".toList → "applyconfiguration" ∉ gs) → Described doc := by
  refine ⟨_, C46_json _ _ _, fun c hc doc hdoc n1 n2 n3 n4 f hf hne => ?_⟩
  obtain ⟨g, hg, es, hes, e, he, d, -, hof, -, hd⟩ := shown_entry σ h hc hdoc
  have het := sections_table hes e he
  have hname : doc.name = e.marker.name := (entryFor het hof hd).name
  have hter : terse e = false := by
    have hp : e.ptr ≠ 3000 := by
      intro hp
      have h1 := List.all_eq_true.1 ptr_resource.1 e het
      simp only [hp, bne_self_eq_false, Bool.false_or, beq_iff_eq] at h1
      have h2 := n4 (hname.trans h1)
      have hall := List.all_eq_true.1 ptr_resource.2 e
      simp only [sections, List.mem_cons, List.not_mem_nil, or_false, Prod.mk.injEq] at hes
      rcases hes with ⟨rfl, rfl⟩ | ⟨rfl, rfl⟩ | ⟨rfl, rfl⟩ | ⟨rfl, rfl⟩ | ⟨rfl, rfl⟩ | ⟨rfl, rfl⟩
      · have := hall (by simp [he]); simp [hp] at this
      · have := hall (by simp [he]); simp [hp] at this
      · have := hall (by simp [he]); simp [hp] at this
      · exact h2 hg
      · have := hall (by simp [he]); simp [hp] at this
      · have := hall (by simp [he]); simp [hp] at this
    rw [hname] at n1 n2 n3
    simp only [terse, Bool.or_eq_false_iff, beq_eq_false_iff_ne]
    exact ⟨⟨⟨n1, n2⟩, n3⟩, hp⟩
  have hargs := List.all_eq_true.1 checkArgs_table e het
  rw [hter] at hargs
  have hargs : checkArgs e = true := by simpa using hargs
  obtain ⟨d0, hd0, rfl⟩ := hof
  obtain ⟨gn, hgn⟩ := (hd.fields f.name).1 ⟨f, hf, rfl⟩
  obtain ⟨htext, -⟩ := hd.each f hf gn hgn
  rw [checkArgs, hd0] at hargs
  have h1 := List.all_eq_true.1 hargs _ hgn
  simp only [Bool.or_eq_true, beq_iff_eq, hne, false_or, Option.any_eq_true_iff_get] at h1
  obtain ⟨hsome, h1⟩ := h1
  have hmem := (GoMap.get_eq_some (entry_ok het).2.2.1).1 (Option.some_get hsome).symm
  rcases htext with ⟨h', h2, h3⟩ | ⟨-, h2⟩
  · cases h2
    rw [GoMap.wf_unique (entry_ok het).2.2.1 h3 hmem]
    simpa using h1
  · exact absurd hmem (h2 _ rfl _)

/-! ## Where it is wrong -/

set_option maxRecDepth 100000 in
theorem same_help : table.all (fun e => (e.marker.name != "kubebuilder:webhook".toList && e.marker.name != "kubebuilder:webhookconfiguration".toList) ||
    decide (e.help.text = (ofType "webhook.Config").text)) = true := by decide +kernel

/-- **C90 is violated by the webhook generator**: its two markers have the same text, which is about one of them (webhook/parser.go:439). -/
theorem C90_violated_webhookconfiguration (σ : Sched) (hg : "webhook" ∈ gs) (h : calls gs = some ops) :
    ∃ cats, helpForLevels σ 4 (HelpRegistry.after ops) .byCategory = some (.json cats) ∧
    (∃ c ∈ cats, ∃ doc ∈ c.markers, doc.name = "kubebuilder:webhookconfiguration".toList) ∧
    ∀ c ∈ cats, ∀ doc ∈ c.markers, doc.name = "kubebuilder:webhook".toList ∨ doc.name = "kubebuilder:webhookconfiguration".toList →
      doc.text.summary = "specifies how a webhook should be served.".toList := by
  refine ⟨_, C46_json _ _ _, ?_, fun c hc doc hdoc hn => ?_⟩
  · obtain ⟨c, hc, doc, hdoc, -, he, -⟩ := documented σ h hg (ms := Markers.Shipped.webhookMarkers) (by simp [Markers.Shipped.registers]) (m := Markers.Shipped.webhookMarkers[1]) (List.getElem_mem _)
    exact ⟨c, hc, doc, hdoc, he.name⟩
  · obtain ⟨g, -, es, hes, e, he, d, -, hof, -, hd⟩ := shown_entry σ h hc hdoc
    have het := sections_table hes e he
    have h1 := List.all_eq_true.1 same_help e het
    rw [(entryFor het hof hd).name] at hn
    rw [(hd.given _ rfl).1]
    have h2 : e.help.text = (ofType "webhook.Config").text := by
      rcases hn with hn | hn <;> simpa only [hn, bne_self_eq_false, Bool.false_and, Bool.and_false, Bool.false_or, decide_eq_true_eq] using h1
    rw [h2]
    decide +kernel

set_option maxRecDepth 100000 in
theorem terse_rules : crdEntries.any (fun e => e.marker.name == "kubebuilder:validation:XValidation".toList && e.marker.arguments.contains "rule".toList) = true ∧
    table.all (fun e => e.marker.name != "kubebuilder:validation:XValidation".toList || (match e.marker.define with
      | none => false
      | some d => d.payload.fieldNames.all fun n => e.help.fieldHelp.all fun t => t.1 != n.2 || t.2.summary == [])) = true := by decide +kernel

/-- **C90 is violated by the rules of the crd generator**: nothing is said about the arguments of `XValidation`. -/
theorem C90_violated_arguments (σ : Sched) (hg : "crd" ∈ gs) (h : calls gs = some ops) :
    ∃ cats, helpForLevels σ 4 (HelpRegistry.after ops) .byCategory = some (.json cats) ∧
    (∃ c ∈ cats, ∃ doc ∈ c.markers, doc.name = "kubebuilder:validation:XValidation".toList ∧ ∃ f ∈ doc.fields, f.name = "rule".toList) ∧
    ∀ c ∈ cats, ∀ doc ∈ c.markers, doc.name = "kubebuilder:validation:XValidation".toList → ∀ f ∈ doc.fields, f.text.summary = [] := by
  refine ⟨_, C46_json _ _ _, ?_, fun c hc doc hdoc hn f hf => ?_⟩
  · obtain ⟨e, he, h1⟩ := List.any_eq_true.1 terse_rules.1
    rw [Bool.and_eq_true, beq_iff_eq, List.contains_iff_mem] at h1
    have hs : ("crd", crdEntries.map (·.marker)) ∈ Markers.Shipped.registers := by
      rw [← sections_markers]
      exact List.mem_map.2 ⟨("crd", crdEntries), by simp [sections], rfl⟩
    obtain ⟨c, hc, doc, hdoc, -, h2, -⟩ := documented σ h hg hs (List.mem_map.2 ⟨e, he, rfl⟩)
    exact ⟨c, hc, doc, hdoc, h2.name.trans h1.1, (h2.arguments _).2 h1.2⟩
  · obtain ⟨g, -, es, hes, e, he, d, -, hof, -, hd⟩ := shown_entry σ h hc hdoc
    have het := sections_table hes e he
    have h1 := List.all_eq_true.1 terse_rules.2 e het
    rw [(entryFor het hof hd).name] at hn
    obtain ⟨d0, hd0, rfl⟩ := hof
    simp only [hn, bne_self_eq_false, Bool.false_or, hd0] at h1
    obtain ⟨gn, hgn⟩ := (hd.fields f.name).1 ⟨f, hf, rfl⟩
    obtain ⟨⟨h', h2, h3⟩ | ⟨h2, -⟩, -⟩ := hd.each f hf gn hgn
    · cases h2
      have := List.all_eq_true.1 (List.all_eq_true.1 h1 _ hgn) _ h3
      simpa using this
    · rw [h2]

theorem registrations_append (a b : List Op) : registrations (a ++ b) = registrations a ++ registrations b := by
  induction a with
  | nil => rfl
  | cons x a ih => cases x <;> simp [registrations, ih]

/-- What is registered first does not count when the same is registered later. -/
theorem not_before {A B : List Op} {d d' : Def Info} (hr : Registered (A ++ B) d) (h' : Op.register d' ∈ B) (hn : d'.name = d.name) (ht : d'.target = d.target) : Op.register d ∈ B := by
  obtain ⟨-, -, -, b, a, he, hl⟩ := hr
  rw [registrations_append] at he
  have h' := mem_registrations.2 h'
  refine mem_registrations.1 ?_
  rcases List.append_eq_append_iff.1 he with ⟨c, -, h2⟩ | ⟨c, -, h2⟩
  · rw [h2]; simp
  · cases c with
    | nil =>
      rw [List.nil_append] at h2
      rw [← h2]; simp
    | cons x c =>
      rw [List.cons_append] at h2
      cases h2
      exact absurd ⟨hn, ht⟩ (hl d' (by simp [h']))

set_option maxRecDepth 100000 in
theorem resource_entries : table.all (fun e => e.marker.name != "kubebuilder:resource".toList || (e.marker.target == .type && (e.ptr == 3 || (e.ptr == 3000 &&
      e.help.text.summary == "enables apply configuration generation for this type".toList && e.help.fieldHelp == [])))) = true ∧
    applyEntries.any (fun e => e.marker.name == "kubebuilder:resource".toList) = true ∧ applyEntries.all (fun e => e.ptr != 3) = true ∧
    crdEntries.any (fun e => e.marker.name == "kubebuilder:resource".toList && e.marker.arguments.contains "scope".toList) = true := by decide +kernel

/-- **C90 is violated when `applyconfiguration` comes after `crd`**: the text of `kubebuilder:resource` is that of `applyconfiguration`, and nothing is said about its arguments. -/
theorem C90_violated_resource (σ : Sched) (h : calls ["crd", "applyconfiguration"] = some ops) :
    ∃ cats, helpForLevels σ 4 (HelpRegistry.after ops) .byCategory = some (.json cats) ∧
    (∃ c ∈ cats, ∃ doc ∈ c.markers, doc.name = "kubebuilder:resource".toList ∧ ∃ f ∈ doc.fields, f.name = "scope".toList) ∧
    ∀ c ∈ cats, ∀ doc ∈ c.markers, doc.name = "kubebuilder:resource".toList →
      doc.text.summary = "enables apply configuration generation for this type".toList ∧ ∀ f ∈ doc.fields, f.text.summary = [] := by
  obtain ⟨k1, k2, k3, k4⟩ := resource_entries
  refine ⟨_, C46_json _ _ _, ?_, fun c hc doc hdoc hn => ?_⟩
  · obtain ⟨e, he, h1⟩ := List.any_eq_true.1 k4
    rw [Bool.and_eq_true, beq_iff_eq, List.contains_iff_mem] at h1
    have hs : ("crd", crdEntries.map (·.marker)) ∈ Markers.Shipped.registers := by
      rw [← sections_markers]
      exact List.mem_map.2 ⟨("crd", crdEntries), by simp [sections], rfl⟩
    obtain ⟨c, hc, doc, hdoc, -, h2, -⟩ := documented σ h (by simp) hs (List.mem_map.2 ⟨e, he, rfl⟩)
    exact ⟨c, hc, doc, hdoc, h2.name.trans h1.1, (h2.arguments _).2 h1.2⟩
  · obtain ⟨g, -, es, hes, e, he, d, hr, hof, -, hd⟩ := shown_entry σ h hc hdoc
    have het := sections_table hes e he
    have h1 := List.all_eq_true.1 k1 e het
    rw [(entryFor het hof hd).name] at hn
    simp only [hn, bne_self_eq_false, Bool.false_or, Bool.and_eq_true, Bool.or_eq_true, beq_iff_eq] at h1
    obtain ⟨htgt, h1⟩ := h1
    obtain ⟨e2, he2, hn2⟩ := List.any_eq_true.1 k2
    rw [beq_iff_eq] at hn2
    have het2 : e2 ∈ table := sections_table (g := "applyconfiguration") (by simp [sections]) e2 he2
    obtain ⟨-, -, -, d2, hd2, -⟩ := entry_ok het2
    have h3 : e.ptr ≠ 3 := by
      intro hp
      have hops : ops = oneByOne crdEntries ++ thenHelp applyEntries := by
        have : calls ["crd", "applyconfiguration"] = some (oneByOne crdEntries ++ (thenHelp applyEntries ++ [])) := rfl
        rw [this] at h
        rw [← Option.some.inj h, List.append_nil]
      rw [hops] at hr
      obtain ⟨d0, hd0, rfl⟩ := hof
      have t2 := List.all_eq_true.1 k1 e2 het2
      simp only [hn2, bne_self_eq_false, Bool.false_or, Bool.and_eq_true, beq_iff_eq] at t2
      obtain ⟨a1, a2⟩ := Markers.define_name hd0
      obtain ⟨b1, b2⟩ := Markers.define_name hd2
      have := not_before hr (d' := ⟨d2.name, d2.target, ⟨e2.ptr, d2.payload⟩⟩) (mem_thenHelp.2 ⟨e2, he2, .inl (mem_register.2 ⟨_, ⟨d2, hd2, rfl⟩, rfl⟩)⟩)
        (by rw [b1, hn2, a1, hn]) (by rw [b2, t2.1, a2, htgt])
      obtain ⟨e3, he3, h4 | h4⟩ := mem_thenHelp.1 this
      · obtain ⟨_, ⟨d3, -, rfl⟩, h4⟩ := mem_register.1 h4
        have h5 := List.all_eq_true.1 k3 e3 he3
        simp only [Op.register.injEq, Def.mk.injEq, Info.mk.injEq] at h4
        rw [← h4.2.2.1, hp] at h5
        simp at h5
      · cases h4
    rcases h1 with h1 | ⟨⟨-, h1⟩, h2⟩
    · exact absurd h1 h3
    · refine ⟨by rw [(hd.given _ rfl).1]; exact h1, fun f hf => ?_⟩
      obtain ⟨gn, hgn⟩ := (hd.fields f.name).1 ⟨f, hf, rfl⟩
      obtain ⟨⟨h', h4, h3⟩ | ⟨h4, -⟩, -⟩ := hd.each f hf gn hgn
      · cases h4
        rw [h2] at h3
        cases h3
      · rw [h4]

/-! ## Examples -/

/-- The hypothesis holds for the generators of controller-gen, in any order and number. -/
theorem calls_some : ∀ gs : List String, (∀ g ∈ gs, g ∈ ["crd", "rbac", "object", "applyconfiguration", "webhook", "schemapatch"]) → ∃ ops, calls gs = some ops
  | [], _ => ⟨_, rfl⟩
  | g :: gs, h => by
    obtain ⟨rest, hr⟩ := calls_some gs fun x hx => h x (by simp [hx])
    have hg := h g (by simp)
    simp only [List.mem_cons, List.not_mem_nil, or_false] at hg
    have : ∃ l, Shipped.registers.lookup g = some l := by
      rcases hg with rfl | rfl | rfl | rfl | rfl | rfl <;> exact ⟨_, rfl⟩
    obtain ⟨l, hl⟩ := this
    exact ⟨l ++ rest, by simp only [calls, hl, hr]⟩

example : ∃ ops, calls ["crd", "webhook", "applyconfiguration", "crd"] = some ops := calls_some _ (by decide)

end Verif.Help

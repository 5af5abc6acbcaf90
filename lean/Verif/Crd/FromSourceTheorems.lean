import Verif.Crd.FromSourceSpec
import Verif.Crd.BreakEnd
import Verif.Markers.InfoTheorems
import Verif.Markers.SourceWritten
import Verif.Markers.ArgLemmas
/-!
# C83: comments are enforced
-/
namespace Verif.Crd
open Spec
open Verif.Markers (Value Arg Definition Marker Shipped.allDefinitions)
open Verif.Markers.Collect (Comment)
open Verif.Markers.Source

/-! ## What comments say -/

/-- A definition with one argument, which has no name. -/
def oneArg (a : Arg) : Definition := ⟨[⟨[], a, false⟩], true⟩

def saysRows : List (String × Definition × MarkKind) := [
  ("Maximum", oneArg .num, .maximum), ("Minimum", oneArg .num, .minimum), ("ExclusiveMaximum", oneArg .bool, .exclusiveMaximum), ("ExclusiveMinimum", oneArg .bool, .exclusiveMinimum),
  ("MultipleOf", oneArg .num, .multipleOf), ("MinProperties", oneArg (.int false), .minProperties), ("MaxProperties", oneArg (.int false), .maxProperties),
  ("MaxLength", oneArg (.int false), .maxLength), ("MinLength", oneArg (.int false), .minLength), ("Pattern", oneArg .str, .pattern), ("MaxItems", oneArg (.int false), .maxItems),
  ("MinItems", oneArg (.int false), .minItems), ("UniqueItems", oneArg .bool, .uniqueItems), ("Enum", oneArg (.slice .any), .enum), ("Format", oneArg .str, .format), ("Type", oneArg .str, .type),
  ("XIntOrString", ⟨[], true⟩, .intOrString), ("XValidation", ruleArgs, .validation)]

set_option maxRecDepth 100000 in
theorem says_rows : (saysRows.all fun r => [true, false].all fun items => [Markers.Target.type, .field].all fun t =>
    (Shipped.allDefinitions.any fun m => decide (m.name = marksPrefix items ++ r.1.toList) && decide (m.target = t) && decide (m.define.map m.parser = some r.2.1)) &&
    decide (markKinds.lookup (String.ofList (marksPrefix items ++ r.1.toList)) = some r.2.2) &&
    decide (("kubebuilder:validation:items:".toList.isPrefixOf (marksPrefix items ++ r.1.toList)) = items) && decide (marksPrefix items ++ r.1.toList ≠ "default".toList)) = true := by
  decide +kernel

variable {gs : List String} {hist : List (Markers.Def Markers.Loaded)} {E : Markers.Env} {code : Value → AnyVal}

theorem says_row (hg : "crd" ∈ gs ∨ "schemapatch" ∈ gs) {n : String} {d : Definition} {k : MarkKind} (h : (n, d, k) ∈ saysRows) (items : Bool) {t : Markers.Target} (ht : t = .type ∨ t = .field) :
    (∃ m, Chosen gs t m d ∧ m.name = marksPrefix items ++ n.toList) ∧ markKinds.lookup (String.ofList (marksPrefix items ++ n.toList)) = some k ∧
      ("kubebuilder:validation:items:".toList <+: (marksPrefix items ++ n.toList) ↔ items = true) ∧ marksPrefix items ++ n.toList ≠ "default".toList := by
  have h1 := List.all_eq_true.1 says_rows _ h
  have h2 := List.all_eq_true.1 h1 items (by cases items <;> simp)
  have h3 := List.all_eq_true.1 h2 t (by simpa using ht)
  simp only [Bool.and_eq_true, decide_eq_true_eq, List.any_eq_true] at h3
  obtain ⟨⟨⟨⟨m, hm, ⟨h4, h5⟩, h6⟩, h7⟩, h8⟩, h9⟩ := h3
  refine ⟨⟨m, ?_, h4⟩, h7, ?_, h9⟩
  · obtain ⟨df, hd, e⟩ := Option.map_eq_some_iff.1 h6
    rcases hg with hg | hg
    · exact ⟨"crd", hg, _, by simp [Markers.Shipped.registers], hm, h5, df, hd, e⟩
    · exact ⟨"schemapatch", hg, Shipped.allDefinitions, by simp [Markers.Shipped.registers], hm, h5, df, hd, e⟩
  · rw [← List.isPrefixOf_iff_prefix, h8]

theorem saysValue_row {n : String} {a : Arg} {v : Value} {m : Mark} (h : SaysValue code n a v m) : ∃ k, (n, oneArg a, k) ∈ saysRows ∧ k.build code [([], v)] = some m := by
  cases h with
  | maximum => exact ⟨.maximum, by simp [saysRows], rfl⟩
  | minimum => exact ⟨.minimum, by simp [saysRows], rfl⟩
  | exclusiveMaximum => exact ⟨.exclusiveMaximum, by simp [saysRows], rfl⟩
  | exclusiveMinimum => exact ⟨.exclusiveMinimum, by simp [saysRows], rfl⟩
  | multipleOf => exact ⟨.multipleOf, by simp [saysRows], rfl⟩
  | minProperties => exact ⟨.minProperties, by simp [saysRows], rfl⟩
  | maxProperties => exact ⟨.maxProperties, by simp [saysRows], rfl⟩
  | maxLength => exact ⟨.maxLength, by simp [saysRows], rfl⟩
  | minLength => exact ⟨.minLength, by simp [saysRows], rfl⟩
  | pattern => exact ⟨.pattern, by simp [saysRows], rfl⟩
  | maxItems => exact ⟨.maxItems, by simp [saysRows], rfl⟩
  | minItems => exact ⟨.minItems, by simp [saysRows], rfl⟩
  | uniqueItems => exact ⟨.uniqueItems, by simp [saysRows], rfl⟩
  | enum => exact ⟨.enum, by simp [saysRows], rfl⟩
  | format => exact ⟨.format, by simp [saysRows], rfl⟩
  | type => exact ⟨.type, by simp [saysRows], rfl⟩

/-- What a comment says is the value of a marker of the generator. -/
theorem says_written (hg : "crd" ∈ gs ∨ "schemapatch" ∈ gs) {c : Comment} {items : Bool} {m : Mark} (h : Says E code c items m) {t : Markers.Target} (ht : t = .type ∨ t = .field) :
    ∃ mk d vals, Chosen gs t mk d ∧ Written E mk.name d c vals ∧ markOf code (String.ofList mk.name) vals = some m ∧ ("kubebuilder:validation:items:".toList <+: mk.name ↔ items = true) := by
  cases h with
  | value hs hx hc =>
    obtain ⟨k, hr, hb⟩ := saysValue_row hs
    obtain ⟨⟨mk, h1, h2⟩, h3, h4, h5⟩ := says_row hg hr items ht
    refine ⟨mk, _, _, h1, .value (h2 ▸ h5) (by rw [h2, hc]) rfl rfl hx, ?_, h2 ▸ h4⟩
    rw [h2, markOf, h3]
    exact hb
  | intOrString hc =>
    obtain ⟨⟨mk, h1, h2⟩, h3, h4, h5⟩ := says_row (n := "XIntOrString") (d := ⟨[], true⟩) (k := .intOrString) hg (by simp [saysRows]) items ht
    refine ⟨mk, _, _, h1, .plain (h2 ▸ h5) (by rw [h2, hc]) (fun _ h => nomatch h), ?_, h2 ▸ h4⟩
    rw [h2, markOf, h3]
    rfl
  | @rule y vals r m e s p o hc hy hn hr t1 t2 t3 t4 t5 t6 =>
    obtain ⟨⟨mk, h1, h2⟩, h3, h4, h5⟩ := says_row (n := "XValidation") (d := ruleArgs) (k := .validation) hg (by simp [saysRows]) items ht
    refine ⟨mk, _, vals, h1, .arguments (h2 ▸ h5) ⟨y, by rw [h2, hc], hy, hn, ?_⟩, ?_, h2 ▸ h4⟩
    · intro f hf ho
      simp only [ruleArgs, List.mem_cons, List.not_mem_nil, or_false] at hf
      rcases hf with rfl | rfl | rfl | rfl | rfl | rfl
      · exact hr
      all_goals cases ho
    · rw [h2, markOf, h3, ← Markers.Args.stringArg_eq hn t1, ← Markers.Args.stringArg_eq hn t2, ← Markers.Args.stringArg_eq hn t3, ← Markers.Args.stringArg_eq hn t4, ← Markers.Args.stringArg_eq hn t5,
        ← Markers.Args.flagArg_eq hn t6]
      rfl

/-! ## From comments to the markers of a declaration -/

theorem get_setOf {markers : List (String × List (List (List Char × Value)))} {k : String} : GoMap.get (setOf code markers) k = (GoMap.get markers k).map (·.map (markOf code k)) := by
  induction markers with
  | nil => rfl
  | cons e l ih =>
    simp only [setOf, List.map_cons, GoMap.get] at ih ⊢
    by_cases h : e.1 = k
    · subst h; simp
    · simp [h, ih]

theorem mem_of_get {α β : Type} [DecidableEq α] {l : List (α × β)} {k : α} {v : β} (h : GoMap.get l k = some v) : (k, v) ∈ l := by
  induction l with
  | nil => cases h
  | cons e l ih =>
    simp only [GoMap.get] at h
    split at h
    · rename_i he; cases h; subst he; exact List.mem_cons_self
    · exact List.mem_cons_of_mem _ (ih h)

variable {f : File} {n : Markers.Collect.Node} {markers : List (String × List (List (List Char × Value)))}

theorem written_mem (hF : Faithful gs E f n markers) {c : Comment} (hc : On f n c) {mk : Marker} {d : Definition} {vals : List (List Char × Value)} (h1 : Chosen gs (toTarget n.target) mk d)
    (h2 : Written E mk.name d c vals) : ∃ vs, GoMap.get markers (String.ofList mk.name) = some vs ∧ vals ∈ vs := by
  have hm : c ∈ f.groups.flatMap (·.comments) := by
    obtain ⟨⟨g, hg, hcg, _⟩, _⟩ := hc
    exact List.mem_flatMap.2 ⟨g, hg, hcg⟩
  have := hF.complete mk d h1 [(c, vals)] (List.singleton_sublist.2 hm) (by
    intro e he
    rw [List.mem_singleton.1 he]
    exact ⟨hc.1, hc.2, h2⟩)
  have := List.singleton_sublist.1 this
  cases hget : GoMap.get markers (String.ofList mk.name) with
  | none => rw [hget] at this; cases this
  | some vs => rw [hget] at this; exact ⟨vs, rfl, this⟩

/-- What a comment says is among the markers. -/
theorem says_has (hg : "crd" ∈ gs ∨ "schemapatch" ∈ gs) (hF : Faithful gs E f n markers) (ht : toTarget n.target = .type ∨ toTarget n.target = .field) {c : Comment} (hc : On f n c) {items : Bool} {m : Mark}
    (h : Says E code c items m) : (items = false → OnValue (setOf code markers) m) ∧ (items = true → OnItems (setOf code markers) m) := by
  obtain ⟨mk, d, vals, h1, h2, h3, h4⟩ := says_written hg h ht
  obtain ⟨vs, hv, hm⟩ := written_mem hF hc h1 h2
  have hh : Has (setOf code markers) (String.ofList mk.name) m := by
    refine ⟨vs.map (markOf code (String.ofList mk.name)), mem_of_get (by rw [get_setOf, hv]; rfl), ?_⟩
    rw [← h3]
    exact List.mem_map_of_mem hm
  have e : (String.ofList mk.name).toList = mk.name := String.toList_ofList
  refine ⟨fun hi => ⟨_, hh, ?_⟩, fun hi => ⟨_, hh, ?_⟩⟩
  · rw [e, h4, hi]; simp
  · rw [e, h4, hi]

variable {M : Meaning} {marshal : AnyVal → Option Raw}

theorem denied_forbids {items : Bool} {own : Mark → Prop} (hs : ∀ c, On f n c → ∀ m, Says E code c items m → own m) {j : Json} (h : Denied M marshal E code f n items j) : Forbids M marshal own j := by
  cases h with
  | mark c m hc h1 h2 h3 => exact .mark m (hs c hc m h1) h2 h3
  | type c t hc h1 h2 h3 => exact .type t (hs c hc _ h1) h2 fun h => h3 h.2
  | exclusiveMaximum c c' v hc h1 hc' h2 hj => exact .exclusiveMaximum v (hs c hc _ h1) (hs c' hc' _ h2) hj
  | exclusiveMinimum c c' v hc h1 hc' h2 hj => exact .exclusiveMinimum v (hs c hc _ h1) (hs c' hc' _ h2) hj

theorem refused_forbids (hg : "crd" ∈ gs ∨ "schemapatch" ∈ gs) (hF : Faithful gs E f n markers) (ht : toTarget n.target = .type ∨ toTarget n.target = .field) {j : Json}
    (h : Refused M marshal E code f n j) : SetForbids M marshal (setOf code markers) j := by
  rcases h with h | ⟨l, x, e, hx, h⟩
  · exact .inl (denied_forbids (fun c hc m hm => (says_has hg hF ht hc hm).1 rfl) h)
  · exact .inr ⟨l, x, e, hx, denied_forbids (fun c hc m hm => (says_has hg hF ht hc hm).2 rfl) h⟩

theorem not_marked (hF : Faithful gs E f n markers) {name : String} (h : NoneOf f n name) : ¬ Marked (setOf code markers) name := by
  rintro ⟨v, vs, hv⟩
  rw [get_setOf] at hv
  obtain ⟨l, hl, e⟩ := Option.map_eq_some_iff.1 hv
  cases l with
  | nil => cases e
  | cons a l =>
    obtain ⟨m, d, -, hn, c, hc, ho, hp, -⟩ := hF.sound name a (by rw [hl]; exact List.mem_cons_self)
    rw [hn] at hp
    exact h c hc ho hp

set_option maxRecDepth 100000 in
theorem required_rows : (["kubebuilder:validation:Required", "required"].all fun n => Shipped.allDefinitions.any fun m => decide (m.name = n.toList) && decide (m.target = Markers.Target.field) &&
    decide (m.define.map m.parser = some ⟨[], true⟩) && decide (m.name ≠ "default".toList)) = true := by decide +kernel

theorem marked_of_reads (hg : "crd" ∈ gs ∨ "schemapatch" ∈ gs) (hF : Faithful gs E f n markers) (ht : toTarget n.target = .field) {name : String} (hn : name ∈ ["kubebuilder:validation:Required", "required"])
    {c : Comment} (hc : On f n c) (hr : ReadsAs c name) : Marked (setOf code markers) name := by
  have h1 := List.all_eq_true.1 required_rows name hn
  simp only [Bool.and_eq_true, decide_eq_true_eq, List.any_eq_true] at h1
  obtain ⟨m, hm, ⟨⟨h2, h3⟩, h4⟩, h5⟩ := h1
  obtain ⟨df, hd, e⟩ := Option.map_eq_some_iff.1 h4
  have hch : Chosen gs (toTarget n.target) m ⟨[], true⟩ := by
    rw [ht]
    rcases hg with hg | hg
    · exact ⟨"crd", hg, _, by simp [Markers.Shipped.registers], hm, h3, df, hd, e⟩
    · exact ⟨"schemapatch", hg, Shipped.allDefinitions, by simp [Markers.Shipped.registers], hm, h3, df, hd, e⟩
  obtain ⟨vs, hv, hmem⟩ := written_mem hF hc hch (vals := []) (.plain h5 (by rw [h2]; exact hr) fun _ h => nomatch h)
  rw [h2, String.ofList_toList] at hv
  cases vs with
  | nil => cases hmem
  | cons a l => exact ⟨_, _, by rw [get_setOf, hv]; rfl⟩

/-! ## From declarations to values -/

theorem inside_breaks {G : Prog} {τ τ' : Ty} {j j' : Json} (h : Inside G τ j τ' j') (hb : Breaks M marshal G τ' j') : Breaks M marshal G τ j := by
  induction h with
  | refl => exact hb
  | ident _ ih => exact .ident (ih hb)
  | selector _ ih => exact .selector (ih hb)
  | named _ ih => exact .named (ih hb)
  | alias _ ih => exact .alias (ih hb)
  | element h1 h2 _ ih => exact .element h1 h2 (ih hb)
  | mapValue h1 _ ih => exact .mapValue h1 (ih hb)
  | pointer _ ih => exact .pointer (ih hb)
  | type h1 h2 h3 h4 _ ih => exact .type h1 h2 h3 h4 (ih hb)
  | field h1 h2 h3 h4 h5 h6 h7 h8 h9 _ ih => exact .field h1 h2 h3 h4 h5 h6 h7 h8 h9 (ih hb)
  | embedded h1 h2 h3 h4 h5 h6 h7 _ ih => exact .embedded h1 h2 h3 h4 h5 h6 h7 (ih hb)

theorem unique_file {files : List File} (h : (files.flatMap File.nodes).Nodup) {f f' : File} (hf : f ∈ files) (hf' : f' ∈ files) {n : Markers.Collect.Node} (h1 : n ∈ f.nodes) (h2 : n ∈ f'.nodes) : f = f' := by
  induction files with
  | nil => cases hf
  | cons g l ih =>
    rw [List.flatMap_cons, List.nodup_append] at h
    rcases List.mem_cons.1 hf with rfl | hf1 <;> rcases List.mem_cons.1 hf' with rfl | hf1'
    · rfl
    · exact absurd rfl (h.2.2 n h1 n (List.mem_flatMap.2 ⟨_, hf1', h2⟩))
    · exact absurd rfl (h.2.2 n h2 n (List.mem_flatMap.2 ⟨_, hf1, h1⟩))
    · exact ih h.2.1 hf1 hf1'

/-- The markers of a type of a package, and of its fields, are those in its file. -/
theorem faithful_info (hh : Markers.Shipped.history gs = some hist) {pk : Package} (hp : Parsed pk.files) (hs : pk.syn.OK pk.files) {t : TypeInfo (List (List Char × Value))} (ht : t ∈ pk.infos hist E)
    {f : File} (hf : f ∈ pk.files) (hn : t.spec ∈ f.nodes) : toTarget t.spec.target = .type ∧ Faithful gs E f t.spec t.markers ∧
      ∀ x ∈ t.fields, toTarget x.node.target = .field ∧ Faithful gs E f x.node x.markers := by
  unfold Package.infos at ht
  split at ht
  · rename_i l hl
    obtain ⟨f', hf', h1, h2, h3, h4⟩ := C82_values hh hp hs hl ht
    obtain rfl := unique_file hp.nodup hf hf' hn h1
    refine ⟨by rw [h2]; rfl, h3, fun x hx => ?_⟩
    obtain ⟨-, h5, h6⟩ := h4 x hx
    exact ⟨by rw [h5]; rfl, h6⟩
  · cases ht

theorem offends_breaks (hg : "crd" ∈ gs ∨ "schemapatch" ∈ gs) (hh : Markers.Shipped.history gs = some hist) {pk : String → Package} (hp : ∀ p, Parsed (pk p).files ∧ (pk p).syn.OK (pk p).files)
    {G : Prog} {τ : Ty} {j : Json} (h : Offends M marshal E code hist pk G τ j) : Breaks M marshal G τ j := by
  induction h with
  | inside h _ ih => exact inside_breaks h ih
  | @type p n t f j ht hd hf hn hr =>
    obtain ⟨h1, h2, -⟩ := faithful_info hh (hp p).1 (hp p).2 ht hf hn
    exact .mark hd (refused_forbids hg h2 (.inl h1) hr)
  | @field p n t f a x b k om m v ht hd hf hn ht1 hj1 hs1 hfs hin hlast hv hr =>
    obtain ⟨-, -, h3⟩ := faithful_info hh (hp p).1 (hp p).2 ht hf hn
    obtain ⟨h1, h2⟩ := h3 x (by rw [hfs]; simp)
    refine .fieldMark (a := a.map (fieldOf code (pk p).shape)) (f := fieldOf code (pk p).shape x) (b := b.map (fieldOf code (pk p).shape)) hd ht1 hj1 hs1 ?_ hin ?_ hv (refused_forbids hg h2 (.inr h1) hr)
    · simp [declOf, hfs]
    · intro g hg' om'
      obtain ⟨y, hy, rfl⟩ := List.mem_map.1 hg'
      exact hlast y hy om'
  | @embedded p n t f x k om j ht hd hf hn ht1 hj1 hs1 hx hin hr =>
    obtain ⟨-, -, h3⟩ := faithful_info hh (hp p).1 (hp p).2 ht hf hn
    obtain ⟨h1, h2⟩ := h3 x hx
    exact .embeddedMark (f := fieldOf code (pk p).shape x) hd ht1 hj1 hs1 (List.mem_map_of_mem hx) hin (refused_forbids hg h2 (.inr h1) hr)
  | @required p n t f x k om m c ht hd hf hn ht1 hj1 hs1 hx hin hc hr hk =>
    obtain ⟨-, -, h3⟩ := faithful_info hh (hp p).1 (hp p).2 ht hf hn
    obtain ⟨h1, h2⟩ := h3 x hx
    refine .missing (f := fieldOf code (pk p).shape x) hd ht1 hj1 hs1 (List.mem_map_of_mem hx) hin ?_ hk
    rcases hr with ⟨hr, ho⟩ | ⟨hr, ho, ho'⟩
    · exact ⟨not_marked h2 ho, .inl (marked_of_reads hg h2 h1 (by simp) hc hr)⟩
    · exact ⟨not_marked h2 ho, .inr ⟨not_marked h2 ho', .inl (marked_of_reads hg h2 h1 (by simp) hc hr)⟩⟩
  | @byDefault p n t f x k m ht hd hf hn ht1 hj1 hs1 hx hin ho ho' hpk hnone hk =>
    obtain ⟨-, -, h3⟩ := faithful_info hh (hp p).1 (hp p).2 ht hf hn
    obtain ⟨h1, h2⟩ := h3 x hx
    refine .missing (f := fieldOf code (pk p).shape x) hd ht1 hj1 hs1 (List.mem_map_of_mem hx) hin ?_ hk
    refine ⟨not_marked h2 ho, .inr ⟨not_marked h2 ho', .inr ⟨fun hm => ?_, rfl, rfl⟩⟩⟩
    obtain ⟨f', hf', c, hc, hb, h4⟩ := hpk _ hm
    obtain ⟨n', h5⟩ := hnone f' hf' c hc hb
    exact h4 n' h5

/-- The markers that `PackageMarkers` gives come from comments that are not in the documentation of a type or field. -/
theorem packageFrom_of (hh : Markers.Shipped.history gs = some hist) {files : List File} (hf : ∀ f ∈ files, f.WF) {σ : Nat → Sched} {τ : Sched} {res : Markers.Values (List (List Char × Value))}
    (hres : markersOf hist E σ τ files = some (some res)) : PackageFrom files (setOf code (res.map fun e => (String.ofList e.1, e.2))) := by
  rintro k ⟨v, vs, hv⟩
  rw [get_setOf] at hv
  obtain ⟨l, hl, e⟩ := Option.map_eq_some_iff.1 hv
  cases l with
  | nil => cases e
  | cons a l =>
    have hk : ∀ (r : Markers.Values (List (List Char × Value))), GoMap.get (r.map fun e => (String.ofList e.1, e.2)) k = GoMap.get r k.toList := by
      intro r
      induction r with
      | nil => rfl
      | cons x r ih =>
        obtain ⟨a, b⟩ := x
        simp only [List.map_cons, GoMap.get]
        by_cases h : a = k.toList
        · subst h; simp
        · have h' : String.ofList a ≠ k := fun h' => h (by rw [← h']; simp)
          simp only [h, h', if_false]
          exact ih
    rw [hk] at hl
    have hmem : a ∈ (GoMap.get res k.toList).getD [] := by rw [hl]; exact List.mem_cons_self
    obtain ⟨f, hff, ρ, r, c, b, d', hr, hat, hl', hn, -⟩ := (mem_packageValues hf hres _ _).1 hmem
    have hn : d'.name = k.toList := by simpa using congrArg String.toList hn
    obtain ⟨g', hg', h1, h2⟩ := Markers.Collect.C16_only (lookupIn hist) ρ (hf f hff) hr _ _ _ hat
    obtain ⟨raw, hraw⟩ := text_plus h2
    rw [hraw] at hl'
    obtain ⟨_, _, ms', hms', m', hm', hdef, ht', hpre⟩ := Markers.C68_only hh (show (Markers.Registry.after hist).lookup ('+' :: raw) .package = some d' from hl')
    refine ⟨f, hff, c, ⟨g', hg', h1, h2⟩, ?_, fun n => (attached_off (hf f hff) hr hat n).1⟩
    rw [Begins, hraw, ← hn, (Markers.define_name hdef).1]
    exact List.cons_prefix_cons.2 ⟨rfl, hpre⟩

/-- **C83** (partial), from the text of comments to the values that are accepted: if the files of the packages are parsed and the parser reports no error, then the schema that results from asking for the
schema of a type and flattening it, and the one that is written into the CRD, reject every value that violates a validation comment, at any depth: one in the documentation of a type or field or directly
above it, whichever generators are chosen beside `crd` or `schemapatch`, in whichever order maps are iterated over.  Missing: as in C78 (markers given twice, recursive types, merging), and comments whose
text is not in the grammar of C14. -/
theorem C83_enforced_partial (hg : "crd" ∈ gs ∨ "schemapatch" ∈ gs) (hh : Markers.Shipped.history gs = some hist) (pk : String → Package) (hp : ∀ p, Parsed (pk p).files ∧ (pk p).syn.OK (pk p).files)
    (hM : Formats M) (S : Src) (b : Bool) (ho : S.overrides = addKnownTypes b) (hS : ∀ p, S.decls p = (pk p).decls hist E code) (ht : ∀ p, Tidy (S.ctx p)) (G : Prog) (hG : ProgOf M S G)
    (hO : ∀ p n d, G.decl p n = some d → OnceDecl d) (σ : Nat → Sched) (k : Nat) (p n : String) (st st' : PState) (h : Reachable S marshal σ st) (hn : S.need marshal σ k ⟨p, n⟩ st = .ok st')
    (he : st'.errs = 0) (hL : Linked G (envOf S st')) (hd : ∀ u, (envOf S st').raw ⟨p, n⟩ = some u → Distinct (envOf S st') p u) (τ : Sched) :
    ∃ u t fst, (envOf S st').raw ⟨p, n⟩ = some u ∧ flattenType (envOf S st') τ ⟨p, n⟩ {} = .ok (some t, fst) ∧
      (AcyclicFrom (envOf S st') p u → (∀ j, Offends M marshal E code hist pk G (.decl p n) j → ¬ Valid M t j) ∧
        (Guard t → ∀ t', flattenEmbedded t = (t', []) → ∀ j, Offends M marshal E code hist pk G (.decl p n) j → ¬ Valid M t' j)) := by
  obtain ⟨u, t, fst, h1, h2, h3, -⟩ := C78_end_to_end_partial M hM S b ho ht G hG marshal hO σ k p n st st' h hn he hL hd τ
  refine ⟨u, t, fst, h1, h2, fun hac => ⟨fun j hj => (h3 hac).1 j (offends_breaks hg hh hp hj), fun hgd t' ht' j hj => (h3 hac).2 hgd t' ht' j (offends_breaks hg hh hp hj)⟩⟩

/-! ## The program is the one in the files -/

theorem marked_setOf {markers : List (String × List (List (List Char × Value)))} {k : String} : Marked (setOf code markers) k ↔ ∃ v vs, GoMap.get markers k = some (v :: vs) := by
  unfold Marked
  rw [get_setOf]
  constructor
  · rintro ⟨v, vs, h⟩
    obtain ⟨l, h1, h2⟩ := Option.map_eq_some_iff.1 h
    cases l with
    | nil => cases h2
    | cons a l => exact ⟨a, l, h1⟩
  · rintro ⟨v, vs, h⟩
    exact ⟨_, _, by rw [h]; rfl⟩

theorem all2_map {α γ δ : Type} {R : γ → δ → Prop} {f : α → γ} {g : α → δ} {l : List α} (h : ∀ a ∈ l, R (f a) (g a)) : All2 R (l.map f) (l.map g) := by
  induction l with
  | nil => exact .nil
  | cons a l ih => exact .cons (h a (by simp)) (ih fun b hb => h b (List.mem_cons_of_mem _ hb))

/-- C83, the program: unless the collector of markers reports an error, the declarations that schemas are generated from are the type declarations in the files, in their order, with the types, tags and
marshalers that are there, with one field for each name, and with the markers in the comments. -/
theorem C83_program (hh : Markers.Shipped.history gs = some hist) (pk : Package) (hp : Parsed pk.files) (hs : pk.syn.OK pk.files) (hr : typesOf hist E pk.syn pk.σ pk.files ≠ some none) :
    All2 (DeclFrom gs E pk) ((pk.files.flatMap fun f => Markers.Each.declared (.node f.node f.children)).map (·.2)) (pk.decls hist E code) := by
  obtain ⟨res, h4, -⟩ := Markers.Source.C82_fails (hist := hist) (E := E) pk.syn pk.σ hp
  cases res with
  | none => exact absurd h4 hr
  | some infos =>
    have he : pk.infos hist E = infos := by unfold Package.infos; rw [h4]
    obtain ⟨h5, h6⟩ := C82_types hp h4
    have h7 : (pk.files.flatMap fun f => Markers.Each.declared (.node f.node f.children)).map (·.2) = infos.map (·.spec) := by
      have := congrArg (List.map fun e : Option Markers.Collect.Node × Markers.Collect.Node × String => e.2.1) h5
      simpa [List.map_map, Function.comp_def] using this.symm
    have hname : ∀ t ∈ infos, t.name = pk.syn.typeName t.spec := by
      intro t ht
      have : (t.decl, t.spec, t.name) ∈ infos.map (fun t => (t.decl, t.spec, t.name)) := List.mem_map_of_mem ht
      rw [h5] at this
      obtain ⟨e, -, h8⟩ := List.mem_map.1 this
      simp only [Prod.mk.injEq] at h8
      rw [← h8.2.2, h8.2.1]
    rw [h7, Package.decls, he]
    refine all2_map fun t ht => ?_
    obtain ⟨f, hf, h8, -, h9, h10⟩ := C82_values hh hp hs h4 ht
    refine ⟨hname t ht, rfl, rfl, rfl, rfl, ⟨f, hf, h8, _, h9, fun k => marked_setOf⟩, ?_⟩
    have h11 : fieldNames pk.syn t.spec = t.fields.map fun x => (x.name, x.node) := by
      rw [h6 t ht]; rfl
    rw [h11]
    refine all2_map fun x hx => ?_
    obtain ⟨h12, -, h13⟩ := h10 x hx
    exact ⟨rfl, rfl, rfl, rfl, ⟨f, hf, h12, _, h13, fun k => marked_setOf⟩⟩

end Verif.Crd

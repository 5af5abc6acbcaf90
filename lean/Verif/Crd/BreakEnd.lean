import Verif.Crd.BreakTheorems
import Verif.Crd.NeedExamples

/-!
# C78, the whole way from the source, with programs that meet the hypotheses and programs for which the claim is false
-/
namespace Verif.Crd
open Spec

/-- C78 (partial), for the whole way from the source: if the parser reports no error, then the schema that results from asking for the schema of a type and flattening it, and the one that is written
into the CRD, reject every value that breaks a validation marker or lacks a required field, at any depth; and they accept every value that encoding/json writes for a value of the type and that breaks
no marker and lacks no required field.  Missing: markers given twice (`C78_violated_repeated`), markers on aliases of declared types (`C78_violated_alias`), types that refer to recursive types (`C78_violated_recursive`, first half only), merging (C28,
`C78_violated_exclusive`), and the guards of C56 (second half only). -/
theorem C78_end_to_end_partial (M : Meaning) (hM : Formats M) (S : Src) (b : Bool) (ho : S.overrides = addKnownTypes b) (ht : ∀ p, Tidy (S.ctx p)) (G : Prog) (hG : ProgOf M S G)
    (marshal : AnyVal → Option Raw) (hO : ∀ p n d, G.decl p n = some d → OnceDecl d) (σ : Nat → Sched) (k : Nat) (p n : String) (st st' : PState)
    (h : Reachable S marshal σ st) (hn : S.need marshal σ k ⟨p, n⟩ st = .ok st') (he : st'.errs = 0) (hL : Linked G (envOf S st'))
    (hd : ∀ u, (envOf S st').raw ⟨p, n⟩ = some u → Distinct (envOf S st') p u) (τ : Sched) :
    ∃ u t fst, (envOf S st').raw ⟨p, n⟩ = some u ∧ flattenType (envOf S st') τ ⟨p, n⟩ {} = .ok (some t, fst) ∧
      (AcyclicFrom (envOf S st') p u → (∀ j, Breaks M marshal G (.decl p n) j → ¬ Valid M t j) ∧
        (Guard t → ∀ t', flattenEmbedded t = (t', []) → ∀ j, Breaks M marshal G (.decl p n) j → ¬ Valid M t' j)) ∧
      (G.nils = false → (∀ p n d, G.decl p n = some d → TypedDecl (G.ctx p) d) → (∀ j, Enc G (.decl p n) j → ¬ Breaks M marshal G (.decl p n) j → Valid M t j) ∧
        (Guard t → ∀ t', flattenEmbedded t = (t', []) → ∀ j, Enc G (.decl p n) j → ¬ Breaks M marshal G (.decl p n) j → Valid M t' j)) := by
  have h' : Reachable S marshal σ st' := .schema k _ h hn
  obtain ⟨u, hu, -⟩ := C55_complete S b ho ht marshal σ k ⟨p, n⟩ st st' h hn he _ .refl
  obtain ⟨hc, hb, hk⟩ := C55_closed S b ho ht marshal σ st' h' he ⟨p, n⟩ u hu
  have hg : Good (envOf S st') p u := ⟨hc, hb, hd u hu⟩
  have hp : ∀ id s, (envOf S st').raw id = some s → ∀ c, Sub s c → c.oneOf = [] ∧ c.not = none :=
    fun id' s hs c hc => have h0 := (schema_links ho ht h' he hs hc).1; ⟨h0.oneOf, h0.not⟩
  obtain ⟨t, fst, h1, -⟩ := flattenType_noRef (envOf S st') τ hu hg (st := {}) nofun
  refine ⟨u, t, fst, hu, h1, fun hac => ?_, fun hN hP => ?_⟩
  · obtain ⟨t2, fst2, e, h2, h3⟩ := C78_enforced_crd_partial M marshal G (envOf S st') (generated_of h' he hG) hL hO hp τ p n u hu hac hg hk
    rw [h1] at e
    cases e
    exact ⟨h2, h3⟩
  · obtain ⟨t2, fst2, e, h2, h3⟩ := C78_accepted_crd_partial M hM marshal G (envOf S st') (generated_of h' he hG) hL hN hP hp (foreign_of ho ht h' he hG) τ p n u hu hg hk
    rw [h1] at e
    cases e
    exact ⟨h2, h3⟩

/-! ## Programs of one package that imports nothing -/
namespace BreakSample

/-- The underlying type of a declared type. -/
def under (d : Decl) : GoType :=
  match d.type with
  | .ident n => if n = "string" then .basic ⟨.string, "string"⟩ else if n = "int32" then .basic ⟨.int32, "int32"⟩ else .other
  | _ => .other

def ctx (ds : List Decl) (self : String) : PkgCtx where
  self := self
  ident := fun n => if self ≠ "v1" then .invalid else if n = "string" then .basic ⟨.string, "string"⟩ else if n = "int32" then .basic ⟨.int32, "int32"⟩ else
    match ds.find? (fun d => d.name = n) with
    | some d => .named (some "v1") n (under d)
    | none => .invalid
  sel := fun _ _ => .invalid
  exported := fun _ => true

def src (ds : List Decl) : Src where
  ctx := ctx ds
  imports := fun _ _ => none
  decls := fun p => if p = "v1" then ds else []
  path := id
  overrides := addKnownTypes false

def prog (ds : List Decl) : Prog where
  ctx := ctx ds
  decl := fun p n => if p = "v1" then ds.find? (fun d => d.name = n) else none
  foreign := fun _ _ _ => False

def mute : AnyVal → Option Raw := fun _ => none
def run (ds : List Decl) (n : String) : Except Stop PState := (src ds).need mute (fun _ => .fifo) 5 ⟨"v1", n⟩ {}
def final (ds : List Decl) (n : String) : PState := match run ds n with | .ok st => st | .error _ => {}

theorem run_ok {ds : List Decl} {n : String} (h : (match run ds n with | .ok _ => true | .error _ => false) = true) : run ds n = .ok (final ds n) := by
  unfold final
  split
  · assumption
  · rename_i e; rw [e] at h; cases h

theorem find_mem {ds : List Decl} {n : String} {d : Decl} (h : ds.find? (fun d => d.name = n) = some d) : d ∈ ds ∧ d.name = n :=
  ⟨List.mem_of_find?_eq_some h, by simpa using List.find?_some h⟩

theorem ident_cases {ds : List Decl} {p n : String} {t : GoType} (h : (ctx ds p).ident n = t) : t = .invalid ∨ (p = "v1" ∧ n = "string" ∧ t = .basic ⟨.string, "string"⟩) ∨
    (p = "v1" ∧ n = "int32" ∧ t = .basic ⟨.int32, "int32"⟩) ∨ (p = "v1" ∧ ∃ d ∈ ds, d.name = n ∧ t = .named (some "v1") n (under d)) := by
  simp only [ctx] at h
  split at h
  · exact .inl h.symm
  · rename_i hp
    have hp := Decidable.not_not.1 hp
    split at h
    · exact .inr (.inl ⟨hp, ‹_›, h.symm⟩)
    · split at h
      · exact .inr (.inr (.inl ⟨hp, ‹_›, h.symm⟩))
      · split at h
        · rename_i d hd
          exact .inr (.inr (.inr ⟨hp, d, (find_mem hd).1, (find_mem hd).2, h.symm⟩))
        · exact .inl h.symm

/-- The names of the types are distinct identifiers. -/
def Names (ds : List Decl) : Prop := (ds.map (·.name)).Nodup ∧ ∀ d ∈ ds, '~' ∉ d.name.toList

instance (ds : List Decl) : Decidable (Names ds) := by unfold Names; infer_instance

theorem tidy {ds : List Decl} (h : Names ds) (p : String) : Tidy ((src ds).ctx p) := by
  refine ⟨?_, ?_, ?_, ?_, ?_⟩
  · intro n pkg m u e
    rcases ident_cases e with e | ⟨-, -, e⟩ | ⟨-, -, e⟩ | ⟨-, d, hd, hn, e⟩
    · cases e
    · cases e
    · cases e
    · cases e; exact ⟨by decide +kernel, hn ▸ h.2 d hd⟩
  · intro n q a pkg m u e
    rcases ident_cases e with e | ⟨-, -, e⟩ | ⟨-, -, e⟩ | ⟨-, d, hd, hn, e⟩ <;> cases e
  · intro n q a pkg m u e
    rcases ident_cases e with e | ⟨-, -, e⟩ | ⟨-, -, e⟩ | ⟨-, d, hd, hn, e⟩ <;> cases e
  · intro x n pkg m u e
    rcases e with e | e <;> cases e
  · intro n hn
    rcases ident_cases (ds := ds) (p := p) (n := n) rfl with e | ⟨-, rfl, -⟩ | ⟨-, rfl, -⟩ | ⟨-, d, hd, rfl, -⟩
    · exact absurd e hn
    · decide +kernel
    · decide +kernel
    · exact h.2 d hd

theorem noOverride (ds : List Decl) (o : Override) : ¬ OverrideOf (src ds) "v1" o := by
  intro h
  unfold OverrideOf at h
  have h2 : (GoMap.get (addKnownTypes false) (String.ofList (Loader.nonVendorPath "v1".toList))).isNone = true := by decide +kernel
  rw [show GoMap.get (addKnownTypes false) (String.ofList (Loader.nonVendorPath "v1".toList)) = some o from h] at h2
  cases h2

theorem progOf {ds : List Decl} (hn : Names ds) (M : Meaning) : ProgOf M (src ds) (prog ds) := by
  refine ⟨rfl, ?_, nofun⟩
  intro p n d h
  simp only [prog] at h
  split at h
  · rename_i e; subst e
    refine ⟨⟨(fun ⟨_, _, h⟩ => by cases h), fun o h => absurd h (noOverride ds o), ?_⟩, fun s ⟨o, _, _, h, _⟩ => noOverride ds o h⟩
    obtain ⟨a, b, hab⟩ := List.append_of_mem (find_mem h).1
    refine ⟨a, b, hab, (find_mem h).2, fun e he hne => ?_⟩
    have hnd := hn.1
    rw [hab, List.map_append, List.map_cons, List.nodup_append] at hnd
    exact (List.nodup_cons.1 hnd.2.1).1 (List.mem_map.2 ⟨e, he, hne.trans (find_mem h).2.symm⟩)
  · cases h

theorem linked {ds : List Decl} (hn : Names ds) (st : PState) : Linked (prog ds) (envOf (src ds) st) := by
  refine linked_plain (fun _ => rfl) ?_ nofun (fun pkg n p a r h => by rcases ident_cases h with e | ⟨-, -, e⟩ | ⟨-, -, e⟩ | ⟨-, d, hd, hn, e⟩ <;> cases e) nofun
  intro pkg n p m u h
  rcases ident_cases h with e | ⟨-, -, e⟩ | ⟨-, -, e⟩ | ⟨hp, d, hd, hnm, e⟩
  · cases e
  · cases e
  · cases e
  · cases e; exact ⟨hnm ▸ hn.2 d hd, fun hne => absurd hp.symm hne⟩

theorem decl_of {ds : List Decl} {p n : String} {d : Decl} (h : (prog ds).decl p n = some d) : p = "v1" ∧ d ∈ ds ∧ d.name = n := by
  simp only [prog] at h
  split at h
  · exact ⟨‹_›, find_mem h⟩
  · cases h

/-! Deciding the conditions on markers and types. -/

def valueMarks (items : Bool) (set : MarkerSet) : List Mark :=
  set.flatMap fun e => if ("kubebuilder:validation:items:".toList.isPrefixOf e.1.toList) = items then e.2.filterMap id else []

def onceB (l : List Mark) : Bool :=
  l.all fun m => l.all fun m' => target m ≠ target m' || target m ∈ [.xValidations, .xListMapKeys, .default, .title, .example_] || m = m'

theorem mem_valueMarks {items : Bool} {set : MarkerSet} {m : Mark} : m ∈ valueMarks items set ↔ ∃ n, Has set n m ∧ ("kubebuilder:validation:items:".toList.isPrefixOf n.toList) = items := by
  unfold valueMarks
  simp only [List.mem_flatMap]
  constructor
  · rintro ⟨e, he, hm⟩
    split at hm
    · rename_i hi
      obtain ⟨x, hx, rfl⟩ := List.mem_filterMap.1 hm
      exact ⟨e.1, ⟨e.2, he, hx⟩, hi⟩
    · cases hm
  · rintro ⟨n, ⟨vs, hv, hm⟩, hi⟩
    refine ⟨(n, vs), hv, ?_⟩
    rw [if_pos hi]
    exact List.mem_filterMap.2 ⟨some m, hm, rfl⟩

theorem onValue_iff {set : MarkerSet} {m : Mark} : OnValue set m ↔ m ∈ valueMarks false set := by
  rw [mem_valueMarks]
  unfold OnValue
  simp only [← List.isPrefixOf_iff_prefix, Bool.not_eq_true]

theorem onItems_iff {set : MarkerSet} {m : Mark} : OnItems set m ↔ m ∈ valueMarks true set := by
  rw [mem_valueMarks]
  unfold OnItems
  simp only [← List.isPrefixOf_iff_prefix]

theorem once_of {own : Mark → Prop} {l : List Mark} (hl : ∀ m, own m → m ∈ l) (h : onceB l = true) : Once own := by
  intro m m' hm hm' ht hx
  unfold onceB at h
  simp only [List.all_eq_true, Bool.or_eq_true, decide_eq_true_eq] at h
  rcases h m (hl m hm) m' (hl m' hm') with (h | h) | h
  · exact absurd ht h
  · exact absurd h hx
  · exact h

def onceDeclB (d : Decl) : Bool :=
  onceB (valueMarks false d.markers) && onceB (valueMarks true d.markers) && d.fields.all fun f => onceB (valueMarks false f.markers) && onceB (valueMarks true f.markers)

theorem onceDecl_of {d : Decl} (h : onceDeclB d = true) : OnceDecl d := by
  unfold onceDeclB at h
  simp only [Bool.and_eq_true, List.all_eq_true] at h
  exact ⟨once_of (fun _ => onValue_iff.1) h.1.1, once_of (fun _ => onItems_iff.1) h.1.2, fun f hf => once_of (fun _ => onValue_iff.1) (h.2 f hf).1,
    fun f hf => once_of (fun _ => onItems_iff.1) (h.2 f hf).2⟩

def typedDeclB (P : PkgCtx) (d : Decl) : Bool :=
  (d.type = .struct || plainB P d.type) && d.fields.all fun f =>
    plainB P f.type &&
    match f.tag with
    | none => true
    | some t => !(Text.split ',' t).tail.contains "string".toList &&
      match included P f with
      | none => true
      | some o => !(o.inline && isRequired P f o)

theorem typedDecl_of {P : PkgCtx} {d : Decl} (h : typedDeclB P d = true) : TypedDecl P d := by
  unfold typedDeclB at h
  simp only [Bool.and_eq_true, decide_eq_true_eq, Bool.or_eq_true, List.all_eq_true] at h
  obtain ⟨h2, h3⟩ := h
  refine ⟨fun hs => plain_of (h2.resolve_left hs), fun f hf => plain_of (h3 f hf).1, ?_, ?_⟩
  · intro f hf ho
    have h4 := (h3 f hf).2
    obtain ⟨t, _, _, ht, _⟩ := id ho
    rw [ht] at h4
    simp only [Bool.and_eq_true, Bool.not_eq_true'] at h4
    have := (hasOption_iff ht "string").1 ho
    rw [← List.contains_iff_mem] at this
    rw [this] at h4
    exact absurd h4.1 (by simp)
  · intro f hf k om hfi hm
    have h4 := (h3 f hf).2
    obtain ⟨t, ht, _⟩ := hfi.2
    rw [ht] at h4
    have hinc : included P f = some ⟨k, true, om⟩ := included_iff.2 hfi
    rw [hinc] at h4
    have hr : isRequired P f ⟨k, true, om⟩ = true := isRequired_iff.2 hm
    simp [hr] at h4

/-- A number for each schema that decreases along all ways shows that no type refers to itself. -/
theorem acyclicFrom_of {env : Env} {pkg : String} {s : Schema} {L : List (String × Schema)} (rank : String × Schema → Nat) (h0 : (pkg, s) ∈ L)
    (hL : ∀ n ∈ L, ∀ n' ∈ env.next n, n' ∈ L ∧ rank n' < rank n) : AcyclicFrom env pkg s := by
  have way : ∀ {p t q t'}, (p, t) ∈ L → Reach env p t q t' → (q, t') ∈ L ∧ rank (q, t') ≤ rank (p, t) := by
    intro p t q t' hm h
    induction h with
    | refl => exact ⟨hm, Nat.le_refl _⟩
    | child _ hc ih =>
      have := hL _ ih.1 _ (List.mem_append_left _ (List.mem_map.2 ⟨_, mem_kids hc, rfl⟩))
      exact ⟨this.1, Nat.le_trans (Nat.le_of_lt this.2) ih.2⟩
    | @ref q t r id u _ hr hl ih =>
      have := hL _ ih.1 (id.pkg, u) (by
        apply List.mem_append_right
        simp only [hr, hl.1, hl.2]
        simp)
      exact ⟨this.1, Nat.le_trans (Nat.le_of_lt this.2) ih.2⟩
  intro q t r id u h hr hl q' t' r' h' hr' hf
  have h1 := hL _ (way h0 h).1 (id.pkg, u) (by
    apply List.mem_append_right
    simp only [hr, hl.1, hl.2]
    simp)
  have h2 := way h1.1 h'
  have h3 := hL _ h2.1 (id.pkg, u) (by
    apply List.mem_append_right
    simp only [hr', hf, hl.2]
    simp)
  omega

/-! Valid values of schemas that are small. -/

theorem valid_leaf {M : Meaning} {b : Base} {j : Json} (h : BaseOk M b j) : Valid M (.leaf b) j := by
  rw [valid_iff]
  simpa [Schema.leaf, Schema.base, Schema.items, Schema.allOf, Schema.oneOf, Schema.anyOf, Schema.not, Schema.properties, Schema.additionalProperties, Schema.patternProperties, Schema.dependencies,
    Schema.additionalItems, ValidItems, ValidAll, ValidOpt, ValidProps, ValidAddl, ValidPats, ValidDeps] using h

theorem valid_allOf {M : Meaning} {l : List Schema} {b : Base} {j : Json} (h : BaseOk M b j) (hl : ∀ s ∈ l, Valid M s j) : Valid M (.mk b none l [] [] none [] none [] [] none []) j := by
  rw [valid_iff]
  simpa [Schema.base, Schema.items, Schema.allOf, Schema.oneOf, Schema.anyOf, Schema.not, Schema.properties, Schema.additionalProperties, Schema.patternProperties, Schema.dependencies,
    Schema.additionalItems, ValidItems, validAll_iff, ValidOpt, ValidProps, ValidAddl, ValidPats, ValidDeps] using ⟨h, hl⟩

theorem valid_list {M : Meaning} {b : Base} {s : Schema} {l : List Json} (h : BaseOk M b (.arr l)) (hl : ∀ x ∈ l, Valid M s x) :
    Valid M (.mk b (some (.mk (some s) [])) [] [] [] none [] none [] [] none []) (.arr l) := by
  rw [valid_iff]
  simpa [Schema.base, Schema.items, Schema.allOf, Schema.oneOf, Schema.anyOf, Schema.not, Schema.properties, Schema.additionalProperties, Schema.patternProperties, Schema.dependencies,
    Schema.additionalItems, ValidItems, ValidAll, ValidOpt, ValidProps, ValidAddl, ValidPats, ValidDeps, ValidPtr, ValidTuple] using ⟨h, hl⟩

theorem valid_object {M : Meaning} {b : Base} {ps : List (String × Schema)} {m : List (String × Json)} (h : BaseOk M b (.obj m)) (hp : ∀ e ∈ ps, ∀ v, m.lookup e.1 = some v → Valid M e.2 v) :
    Valid M (.mk b none [] [] [] none ps none [] [] none []) (.obj m) := by
  rw [valid_iff]
  simp only [Schema.base_mk, Schema.items_mk, Schema.allOf_mk, Schema.oneOf_mk, Schema.anyOf_mk, Schema.not_mk, Schema.properties_mk,
    Schema.additionalProperties_mk, Schema.patternProperties_mk, Schema.dependencies_mk, Schema.additionalItems_mk, ValidItems, ValidAll, ValidOpt, ValidAddl, ValidPats, ValidDeps]
  exact ⟨h, trivial, trivial, fun h => absurd rfl h, fun h => absurd rfl h, fun h => h, validProps_iff.2 hp, trivial, trivial, trivial, trivial⟩

theorem empty_ok {M : Meaning} {j : Json} : BaseOk M {} j := by
  constructor <;> simp [TypeOk, hasType_nil, MaxOk, MinOk]

/-- The flattened schema of a type of the program. -/
def flat (ds : List Decl) (n : String) : Option Schema :=
  match flattenType (envOf (src ds) (final ds n)) .fifo ⟨"v1", n⟩ {} with
  | .ok (some t, _) => some t
  | _ => none

theorem flat_ok {ds : List Decl} {n : String} {t : Schema} (h : flat ds n = some t) : ∃ fst, flattenType (envOf (src ds) (final ds n)) .fifo ⟨"v1", n⟩ {} = .ok (some t, fst) := by
  unfold flat at h
  split at h
  · rename_i heq; cases h; exact ⟨_, heq⟩
  · cases h

def field (name tag : String) (type : TExpr) (markers : MarkerSet := []) : Field := { name, tag := some tag.toList, type, markers }
def mk (n : String) (m : Mark) : String × List (Option Mark) := ("kubebuilder:validation:" ++ n, [some m])

theorem fieldIn_iff {P : PkgCtx} {f : Field} {k : String} {i om : Bool} : FieldIn P f k i om ↔ included P f = some ⟨k, i, om⟩ := (included_iff (o := ⟨k, i, om⟩)).symm

/-- `type T string` with two markers for the maximal length. -/
def twice : Decl := { name := "T", type := .ident "string", markers := [("kubebuilder:validation:MaxLength", [some (.maxLength 3), some (.maxLength 5)])] }

/-- `type Node struct { Name string; Next *Node }` with a marker for the name. -/
def node : Decl := { name := "Node", type := .struct, fields := [field "Name" "name,omitempty" (.ident "string") [mk "MaxLength" (.maxLength 3)], field "Next" "next,omitempty" (.star (.ident "Node"))] }

/-- `type Small int32`, below ten. -/
def small : Decl := { name := "Small", type := .ident "int32", markers := [mk "Maximum" (.maximum 10), mk "ExclusiveMaximum" (.exclusiveMaximum true)] }
/-- `type Use struct { N Small }` with markers for the type and the maximum of the field. -/
def use : Decl := { name := "Use", type := .struct, fields := [field "N" "n" (.ident "Small") [mk "Type" (.type "integer"), mk "Maximum" (.maximum 20)]] }

end BreakSample

open BreakSample

/-- C78 is violated by markers that are given twice: the last one counts, and values that break the other are accepted. -/
theorem C78_violated_repeated (M : Meaning) : ∃ (S : Src) (G : Prog) (marshal : AnyVal → Option Raw) (σ : Nat → Sched) (k : Nat) (st : PState) (t : Schema) (fst : FState) (j : Json),
    S.overrides = addKnownTypes false ∧ (∀ p, Tidy (S.ctx p)) ∧ ProgOf M S G ∧ S.need marshal σ k ⟨"v1", "T"⟩ {} = .ok st ∧ st.errs = 0 ∧ Linked G (envOf S st) ∧
      flattenType (envOf S st) .fifo ⟨"v1", "T"⟩ {} = .ok (some t, fst) ∧ Breaks M marshal G (.decl "v1" "T") j ∧ Valid M t j := by
  have hn : Names [twice] := by decide +kernel
  obtain ⟨fst, hf⟩ := flat_ok (ds := [twice]) (n := "T") (t := .leaf { type := "string", maxLength := some 5 }) (by decide +kernel)
  refine ⟨src [twice], prog [twice], mute, fun _ => .fifo, 5, final [twice] "T", _, fst, .str "abcd", rfl, tidy hn, progOf hn M, run_ok (by decide +kernel), by decide +kernel, linked hn _, hf, ?_, ?_⟩
  · refine .mark (d := twice) (by rfl) (.inl (.mark (.maxLength 3) (onValue_iff.2 (by decide +kernel)) nofun ?_))
    intro h
    exact absurd (h "abcd" rfl) (by decide +kernel)
  · refine valid_leaf ?_
    constructor <;> simp [TypeOk, HasType, MaxOk, MinOk]
    decide +kernel

/-- C78 is violated by recursive types: where the schema is cut off, markers have no effect. -/
theorem C78_violated_recursive (M : Meaning) : ∃ (S : Src) (G : Prog) (marshal : AnyVal → Option Raw) (σ : Nat → Sched) (k : Nat) (st : PState) (t : Schema) (fst : FState) (j : Json),
    S.overrides = addKnownTypes false ∧ (∀ p, Tidy (S.ctx p)) ∧ ProgOf M S G ∧ (∀ p n d, G.decl p n = some d → OnceDecl d) ∧ S.need marshal σ k ⟨"v1", "Node"⟩ {} = .ok st ∧ st.errs = 0 ∧
      Linked G (envOf S st) ∧ flattenType (envOf S st) .fifo ⟨"v1", "Node"⟩ {} = .ok (some t, fst) ∧ Breaks M marshal G (.decl "v1" "Node") j ∧ Valid M t j := by
  have hn : Names [node] := by decide +kernel
  obtain ⟨fst, hf⟩ := flat_ok (ds := [node]) (n := "Node") (t := .mk { type := "object" } none [] [] [] none [("name", .leaf { type := "string", maxLength := some 3 }),
    ("next", .mk {} none [.mk { type := "object" } none [] [] [] none [("name", .leaf { type := "string", maxLength := some 3 }), ("next", .mk {} none [.empty, .empty] [] [] none [] none [] [] none [])]
      none [] [] none [], .empty] [] [] none [] none [] [] none [])] none [] [] none []) (by decide +kernel)
  have i1 : FieldIn ((prog [node]).ctx "v1") (field "Name" "name,omitempty" (.ident "string") [mk "MaxLength" (.maxLength 3)]) "name" false true := fieldIn_iff.2 (by decide +kernel)
  have i2 : FieldIn ((prog [node]).ctx "v1") (field "Next" "next,omitempty" (.star (.ident "Node"))) "next" false true := fieldIn_iff.2 (by decide +kernel)
  refine ⟨src [node], prog [node], mute, fun _ => .fifo, 5, final [node] "Node", _, fst, .obj [("next", .obj [("next", .obj [("name", .str "abcd")])])], rfl, tidy hn, progOf hn M, ?_,
    run_ok (by decide +kernel), by decide +kernel, linked hn _, hf, ?_, ?_⟩
  · intro p n d hd
    rw [List.mem_singleton.1 (decl_of hd).2.1]
    exact onceDecl_of (by decide +kernel)
  · have next : ∀ j, Breaks M mute (prog [node]) (.decl "v1" "Node") j → Breaks M mute (prog [node]) (.decl "v1" "Node") (.obj [("next", j)]) := by
      intro j hj
      refine .field (d := node) (a := [_]) (b := []) (by rfl) rfl rfl rfl rfl i2 nofun (fun ⟨_, _, h⟩ => by cases h) rfl (.pointer (.ident ?_))
      rw [show ((prog [node]).ctx "v1").ident "Node" = .named (some "v1") "Node" .other by decide +kernel]
      exact .named hj
    refine next _ (next _ (.fieldMark (d := node) (a := []) (b := [_]) (by rfl) rfl rfl rfl rfl i1 ?_ rfl
      (.inl (.mark (.maxLength 3) (onValue_iff.2 (by decide +kernel)) nofun fun h => absurd (h "abcd" rfl) (by decide +kernel)))))
    intro g hg om h
    rw [List.mem_singleton.1 hg] at h
    have := fieldIn_iff.1 h
    rw [fieldIn_iff.1 i2] at this
    simp at this
  · have hobj : ∀ m, BaseOk M { type := "object" } (.obj m) := fun m => by constructor <;> simp [TypeOk, HasType, MaxOk, MinOk]
    have he : ∀ j, Valid M .empty j := fun j => valid_leaf empty_ok
    refine valid_object (hobj _) fun e he' v hv => ?_
    simp only [List.mem_cons, List.not_mem_nil, or_false] at he'
    rcases he' with rfl | rfl
    · cases hv
    · cases hv
      refine valid_allOf empty_ok fun s hs => ?_
      simp only [List.mem_cons, List.not_mem_nil, or_false] at hs
      rcases hs with rfl | rfl
      · refine valid_object (hobj _) fun e he' v hv => ?_
        simp only [List.mem_cons, List.not_mem_nil, or_false] at he'
        rcases he' with rfl | rfl
        · cases hv
        · cases hv
          refine valid_allOf empty_ok fun s hs => ?_
          simp only [List.mem_cons, List.not_mem_nil, or_false, or_self] at hs
          subst hs; exact he _
      · exact he _

/-- C78 is violated by exclusive bounds: the schema in the CRD accepts a value that is not below the exclusive maximum of its type, if its field has a maximum as well. -/
theorem C78_violated_exclusive (M : Meaning) (hM : Formats M) : ∃ (S : Src) (G : Prog) (marshal : AnyVal → Option Raw) (σ : Nat → Sched) (k : Nat) (st : PState) (t t' : Schema) (fst : FState) (j : Json),
    S.overrides = addKnownTypes false ∧ (∀ p, Tidy (S.ctx p)) ∧ ProgOf M S G ∧ (∀ p n d, G.decl p n = some d → OnceDecl d) ∧ S.need marshal σ k ⟨"v1", "Use"⟩ {} = .ok st ∧ st.errs = 0 ∧
      Linked G (envOf S st) ∧ flattenType (envOf S st) .fifo ⟨"v1", "Use"⟩ {} = .ok (some t, fst) ∧ flattenEmbedded t = (t', []) ∧ Breaks M marshal G (.decl "v1" "Use") j ∧ Valid M t' j := by
  have hn : Names [small, use] := by decide +kernel
  obtain ⟨fst, hf⟩ := flat_ok (ds := [small, use]) (n := "Use") (t := .mk { type := "object", required := ["n"] } none [] [] [] none
    [("n", .mk {} none [.leaf { type := "integer", format := "int32", maximum := some 10, exclusiveMaximum := true }, .leaf { type := "integer", maximum := some 20 }] [] [] none [] none [] [] none [])]
    none [] [] none []) (by decide +kernel)
  have i1 : FieldIn ((prog [small, use]).ctx "v1") (field "N" "n" (.ident "Small") [mk "Type" (.type "integer"), mk "Maximum" (.maximum 20)]) "n" false false := fieldIn_iff.2 (by decide +kernel)
  refine ⟨src [small, use], prog [small, use], mute, fun _ => .fifo, 5, final [small, use] "Use", _, .mk { type := "object", required := ["n"] } none [] [] [] none
    [("n", .mk { type := "integer", format := "int32", exclusiveMaximum := true } none [.leaf { maximum := some 10 }, .leaf { maximum := some 20 }] [] [] none [] none [] [] none [])]
    none [] [] none [], fst, .obj [("n", .num (10 : Int))], rfl, tidy hn, progOf hn M, ?_, run_ok (by decide +kernel), by decide +kernel, linked hn _, hf, by decide +kernel, ?_, ?_⟩
  · intro p n d hd
    have := (decl_of hd).2.1
    simp only [List.mem_cons, List.not_mem_nil, or_false] at this
    rcases this with rfl | rfl <;> exact onceDecl_of (by decide +kernel)
  · refine .field (d := use) (a := []) (b := []) (by rfl) rfl rfl rfl rfl i1 nofun (fun ⟨_, _, h⟩ => by cases h) rfl (.ident ?_)
    rw [show ((prog [small, use]).ctx "v1").ident "Small" = .named (some "v1") "Small" (.basic ⟨.int32, "int32"⟩) by decide +kernel]
    exact .named (.mark (d := small) (by rfl) (.inl (.exclusiveMaximum 10 (onValue_iff.2 (by decide +kernel)) (onValue_iff.2 (by decide +kernel)) rfl)))
  · refine valid_object (by constructor <;> simp [TypeOk, HasType, MaxOk, MinOk]) fun e he v hv => ?_
    rw [List.mem_singleton.1 he] at hv ⊢
    cases hv
    refine valid_allOf ?_ fun s hs => ?_
    · constructor <;> simp [TypeOk, HasType, MaxOk, MinOk]
      · exact ⟨10, rfl⟩
      · exact hM.int32 10 (by decide) (by decide)
    · simp only [List.mem_cons, List.not_mem_nil, or_false] at hs
      rcases hs with rfl | rfl
      · refine valid_leaf ?_
        constructor <;> simp [TypeOk, hasType_nil, MaxOk, MinOk] <;> decide +kernel
      · refine valid_leaf ?_
        constructor <;> simp [TypeOk, hasType_nil, MaxOk, MinOk] <;> decide +kernel

/-! ## A program that meets the hypotheses -/
namespace BreakSample

/-- `type Port int32`, from 1 to 65535. -/
def port : Decl := { name := "Port", type := .ident "int32", markers := [mk "Minimum" (.minimum 1), mk "Maximum" (.maximum 65535)] }

def specName : Field := field "Name" "name" (.ident "string") [mk "MaxLength" (.maxLength 5)]
def specPorts : Field := field "Ports" "ports" (.array false (.ident "Port")) [mk "MinItems" (.minItems 1)]
def specTags : Field := field "Tags" "tags,omitempty" (.array false (.ident "string")) [mk "items:MaxLength" (.maxLength 3)]
def spec : Decl := { name := "Spec", type := .struct, fields := [specName, specPorts, specTags] }

def rootSpec : Field := field "Spec" "spec" (.ident "Spec")
def rootAdmin : Field := field "Admin" "admin,omitempty" (.star (.ident "Port")) [mk "Type" (.type "integer"), mk "Maximum" (.maximum 1023)]
def root : Decl := { name := "Root", type := .struct, fields := [rootSpec, rootAdmin] }

def all : List Decl := [port, spec, root]
def env : Env := envOf (src all) (final all "Root")
def G : Prog := prog all

theorem names : Names all := by decide +kernel
theorem all_ok : run all "Root" = .ok (final all "Root") := run_ok (by decide +kernel)

theorem decl_all {p n : String} {d : Decl} (h : G.decl p n = some d) : d = port ∨ d = spec ∨ d = root := by
  have := (decl_of h).2.1
  simpa only [all, List.mem_cons, List.not_mem_nil, or_false] using this

theorem once_all (p n : String) (d : Decl) (h : G.decl p n = some d) : OnceDecl d := by
  rcases decl_all h with rfl | rfl | rfl <;> exact onceDecl_of (by decide +kernel)

theorem typed_all (p n : String) (d : Decl) (h : G.decl p n = some d) : TypedDecl (G.ctx p) d := by
  obtain ⟨rfl, -, -⟩ := decl_of h
  rcases decl_all h with rfl | rfl | rfl <;> exact typedDecl_of (by decide +kernel)

/-- The length of the longest way, up to a bound. -/
def depth (env : Env) : Nat → String × Schema → Nat
  | 0, _ => 0
  | n + 1, x => 1 + (env.next x).foldl (fun a y => max a (depth env n y)) 0

def rootRaw : Schema := (env.raw ⟨"v1", "Root"⟩).getD .empty
def nodes : List (String × Schema) := env.reachList 8 [("v1", rootRaw)]

theorem root_acyclic : AcyclicFrom env "v1" rootRaw := acyclicFrom_of (depth env 10) (L := nodes) (by decide +kernel) (by decide +kernel)
theorem root_distinct : Distinct env "v1" rootRaw := distinct_of 3 (L := nodes) (by decide +kernel) (by decide +kernel) (by decide +kernel)

theorem enc_port (z : Int) (h1 : -2^31 ≤ z) (h2 : z ≤ 2^31 - 1) : Enc G (.expr "v1" (.ident "Port")) (.num z) := by
  refine .ident ?_
  rw [show (G.ctx "v1").ident "Port" = .named (some "v1") "Port" (.basic ⟨.int32, "int32"⟩) by decide +kernel]
  refine .named (.type (d := port) (by rfl) rfl rfl (by decide +kernel) (.ident ?_))
  rw [show (G.ctx "v1").ident "int32" = .basic ⟨.int32, "int32"⟩ by decide +kernel]
  exact .basic (.int z rfl h1 h2)

theorem enc_string (s : String) : Enc G (.expr "v1" (.ident "string")) (.str s) := by
  refine .ident ?_
  rw [show (G.ctx "v1").ident "string" = .basic ⟨.string, "string"⟩ by decide +kernel]
  exact .basic (.string s)

theorem i_name : included (G.ctx "v1") specName = some ⟨"name", false, false⟩ := by decide +kernel
theorem i_ports : included (G.ctx "v1") specPorts = some ⟨"ports", false, false⟩ := by decide +kernel
theorem i_tags : included (G.ctx "v1") specTags = some ⟨"tags", false, true⟩ := by decide +kernel
theorem i_spec : included (G.ctx "v1") rootSpec = some ⟨"spec", false, false⟩ := by decide +kernel
theorem i_admin : included (G.ctx "v1") rootAdmin = some ⟨"admin", false, true⟩ := by decide +kernel

def goodSpec : List (String × Json) := [("name", .str "web"), ("ports", .arr [.num (80 : Int)]), ("tags", .arr [.str "x"])]
def good : List (String × Json) := [("spec", .obj goodSpec), ("admin", .num (80 : Int))]

theorem enc_spec : Enc G (.decl "v1" "Spec") (.obj goodSpec) := by
  refine .struct (d := spec) _ (by rfl) rfl rfl rfl ?_ ?_ ?_ ?_
  · intro f hf k om v hfi _ hv
    have h := fieldIn_iff.1 hfi
    simp only [spec, List.mem_cons, List.not_mem_nil, or_false] at hf
    rcases hf with rfl | rfl | rfl
    · rw [i_name] at h; cases h; cases hv; exact enc_string "web"
    · rw [i_ports] at h; cases h; cases hv
      refine .array _ (fun _ h => by revert h; rw [← byteLike_iff]; decide +kernel) fun x hx => ?_
      rw [List.mem_singleton.1 hx]; exact enc_port 80 (by decide) (by decide)
    · rw [i_tags] at h; cases h; cases hv
      refine .array _ (fun _ h => by revert h; rw [← byteLike_iff]; decide +kernel) fun x hx => ?_
      rw [List.mem_singleton.1 hx]; exact enc_string "x"
  · intro f hf k om v _ ho
    exact absurd ho ((typed_all "v1" "Spec" spec rfl).noString f hf)
  · intro f hf k om hfi _ _
    have h := fieldIn_iff.1 hfi
    simp only [spec, List.mem_cons, List.not_mem_nil, or_false] at hf
    rcases hf with rfl | rfl | rfl
    · rw [i_name] at h; cases h; decide +kernel
    · rw [i_ports] at h; cases h; decide +kernel
    · rw [i_tags] at h; cases h; decide +kernel
  · intro f hf k om hfi
    have h := fieldIn_iff.1 hfi
    simp only [spec, List.mem_cons, List.not_mem_nil, or_false] at hf
    rcases hf with rfl | rfl | rfl
    · rw [i_name] at h; cases h
    · rw [i_ports] at h; cases h
    · rw [i_tags] at h; cases h

theorem enc_root : Enc G (.decl "v1" "Root") (.obj good) := by
  refine .struct (d := root) _ (by rfl) rfl rfl rfl ?_ ?_ ?_ ?_
  · intro f hf k om v hfi _ hv
    have h := fieldIn_iff.1 hfi
    simp only [root, List.mem_cons, List.not_mem_nil, or_false] at hf
    rcases hf with rfl | rfl
    · rw [i_spec] at h; cases h; cases hv
      refine .ident ?_
      rw [show (G.ctx "v1").ident "Spec" = .named (some "v1") "Spec" .other by decide +kernel]
      exact .named enc_spec
    · rw [i_admin] at h; cases h; cases hv
      exact .pointer (enc_port 80 (by decide) (by decide))
  · intro f hf k om v _ ho
    exact absurd ho ((typed_all "v1" "Root" root rfl).noString f hf)
  · intro f hf k om hfi _ _
    have h := fieldIn_iff.1 hfi
    simp only [root, List.mem_cons, List.not_mem_nil, or_false] at hf
    rcases hf with rfl | rfl
    · rw [i_spec] at h; cases h; decide +kernel
    · rw [i_admin] at h; cases h; decide +kernel
  · intro f hf k om hfi
    have h := fieldIn_iff.1 hfi
    simp only [root, List.mem_cons, List.not_mem_nil, or_false] at hf
    rcases hf with rfl | rfl
    · rw [i_spec] at h; cases h
    · rw [i_admin] at h; cases h

theorem of_port {M : Meaning} {marshal : AnyVal → Option Raw} {j : Json} (h : Breaks M marshal G (.decl "v1" "Port") j) : Breaks M marshal G (.expr "v1" (.ident "Port")) j := by
  refine .ident ?_
  rw [show (G.ctx "v1").ident "Port" = .named (some "v1") "Port" (.basic ⟨.int32, "int32"⟩) by decide +kernel]
  exact .named h

theorem of_spec {M : Meaning} {marshal : AnyVal → Option Raw} {j : Json} (h : Breaks M marshal G (.decl "v1" "Spec") j) : Breaks M marshal G (.decl "v1" "Root") (.obj [("spec", j)]) := by
  refine .field (d := root) (a := []) (b := [rootAdmin]) (by rfl) rfl rfl rfl rfl (fieldIn_iff.2 i_spec) ?_ (fun ⟨_, _, h⟩ => by cases h) rfl (.ident ?_)
  · intro g hg om h
    rw [List.mem_singleton.1 hg] at h
    have := fieldIn_iff.1 h
    rw [i_admin] at this; simp at this
  · rw [show (G.ctx "v1").ident "Spec" = .named (some "v1") "Spec" .other by decide +kernel]
    exact .named h

/-- A port that is too small, in a list in a field of a struct. -/
theorem bad_port (M : Meaning) : Breaks M mute G (.decl "v1" "Root") (.obj [("spec", .obj [("name", .str "web"), ("ports", .arr [.num (80 : Int), .num (0 : Int)])])]) := by
  refine of_spec (.field (d := spec) (a := [specName]) (b := [specTags]) (by rfl) rfl rfl rfl rfl (fieldIn_iff.2 i_ports) ?_ (fun ⟨_, _, h⟩ => by rw [show GoMap.get specPorts.markers "kubebuilder:validation:Schemaless" = none by decide +kernel] at h; cases h) rfl
    (.element (x := .num (0 : Int)) (fun _ h => by revert h; rw [← byteLike_iff]; decide +kernel) (by simp) (of_port (.mark (d := port) (by rfl) (.inl (.mark (.minimum 1) (onValue_iff.2 (by decide +kernel)) nofun fun h =>
      absurd (h 0 rfl) (by decide +kernel)))))))
  intro g hg om h
  rw [List.mem_singleton.1 hg] at h
  have := fieldIn_iff.1 h
  rw [i_tags] at this; simp at this

/-- A tag that is too long, by a marker for the items of the list. -/
theorem bad_tag (M : Meaning) : Breaks M mute G (.decl "v1" "Root") (.obj [("spec", .obj [("name", .str "web"), ("ports", .arr [.num (80 : Int)]), ("tags", .arr [.str "long"])])]) :=
  of_spec (.fieldMark (d := spec) (a := [specName, specPorts]) (b := []) (by rfl) rfl rfl rfl rfl (fieldIn_iff.2 i_tags) nofun rfl
    (.inr ⟨_, .str "long", rfl, by simp, .mark (.maxLength 3) (onItems_iff.2 (by decide +kernel)) nofun fun h => absurd (h "long" rfl) (by decide +kernel)⟩))

/-- A required field is missing. -/
theorem no_ports (M : Meaning) : Breaks M mute G (.decl "v1" "Root") (.obj [("spec", .obj [("name", .str "web")])]) :=
  of_spec (.missing (d := spec) (f := specPorts) (by rfl) rfl rfl rfl (by simp [spec]) (fieldIn_iff.2 i_ports) ((isRequired_iff (o := ⟨"ports", false, false⟩)).1 (by decide +kernel)) (by decide +kernel))

def portFlat : Schema := .leaf { type := "integer", format := "int32", maximum := some 65535, minimum := some 1 }
def both (a b : Schema) : Schema := .mk {} none [a, b] [] [] none [] none [] [] none []
def listOf (b : Base) (s : Schema) : Schema := .mk b (some (.mk (some s) [])) [] [] [] none [] none [] [] none []
def objectOf (req : List String) (ps : List (String × Schema)) : Schema := .mk { type := "object", required := req } none [] [] [] none ps none [] [] none []

def specFlat : Schema := objectOf ["name", "ports"] [("name", .leaf { type := "string", maxLength := some 5 }), ("ports", listOf { type := "array", minItems := some 1 } (both portFlat .empty)),
  ("tags", listOf { type := "array" } (.leaf { type := "string", maxLength := some 3 }))]

/-- The flattened schema of `Root`. -/
def rootFlat : Schema := objectOf ["spec"] [("spec", both specFlat .empty), ("admin", both portFlat (.leaf { type := "integer", maximum := some 1023 }))]

theorem flat_root : flat all "Root" = some rootFlat := by decide +kernel

theorem valid_both {M : Meaning} {a b : Schema} {j : Json} (ha : Valid M a j) (hb : Valid M b j) : Valid M (both a b) j :=
  valid_allOf empty_ok fun s hs => by
    simp only [List.mem_cons, List.not_mem_nil, or_false] at hs
    rcases hs with rfl | rfl
    · exact ha
    · exact hb

theorem valid_good (M : Meaning) (hM : Formats M) : Valid M rootFlat (.obj good) := by
  have hport : Valid M portFlat (.num (80 : Int)) := by
    refine valid_leaf ?_
    constructor <;> simp [TypeOk, HasType, MaxOk, MinOk]
    · exact ⟨80, rfl⟩
    · exact hM.int32 80 (by decide) (by decide)
    · decide +kernel
    · decide +kernel
  have hempty : ∀ j, Valid M .empty j := fun j => valid_leaf empty_ok
  have hstr : ∀ (s : String) (n : Int), (s.length : Int) ≤ n → Valid M (.leaf { type := "string", maxLength := some n }) (.str s) := by
    intro s n h
    refine valid_leaf ?_
    constructor <;> simp [TypeOk, HasType, MaxOk, MinOk]
    exact h
  refine valid_object (by constructor <;> simp [TypeOk, HasType, MaxOk, MinOk, good]) fun e he v hv => ?_
  simp only [List.mem_cons, List.not_mem_nil, or_false] at he
  rcases he with rfl | rfl
  · cases hv
    refine valid_both (valid_object ?_ fun e he v hv => ?_) (hempty _)
    · constructor <;> simp [TypeOk, HasType, MaxOk, MinOk, goodSpec]
      rintro m k rfl (rfl | rfl) <;> simp
    simp only [List.mem_cons, List.not_mem_nil, or_false] at he
    rcases he with rfl | rfl | rfl
    · cases hv; exact hstr _ _ (by decide +kernel)
    · cases hv
      refine valid_list (by constructor <;> simp [TypeOk, HasType, MaxOk, MinOk]) fun x hx => ?_
      rw [List.mem_singleton.1 hx]; exact valid_both hport (hempty _)
    · cases hv
      refine valid_list (by constructor <;> simp [TypeOk, HasType, MaxOk, MinOk]) fun x hx => ?_
      rw [List.mem_singleton.1 hx]; exact hstr _ _ (by decide +kernel)
  · cases hv
    refine valid_both hport (valid_leaf ?_)
    constructor <;> simp [TypeOk, HasType, MaxOk, MinOk]
    · exact ⟨80, rfl⟩
    · decide +kernel

end BreakSample

/-- C78: all hypotheses of `C78_end_to_end_partial` are met by one program; the flattened schema rejects three values that break a marker of a type, break a marker for the items of a list, and lack a
required field, and accepts a value that breaks nothing. -/
example (M : Meaning) (hM : Formats M) : ∃ t fst, flattenType BreakSample.env .fifo ⟨"v1", "Root"⟩ {} = .ok (some t, fst) ∧
    ¬ Valid M t (.obj [("spec", .obj [("name", .str "web"), ("ports", .arr [.num (80 : Int), .num (0 : Int)])])]) ∧
    ¬ Valid M t (.obj [("spec", .obj [("name", .str "web"), ("ports", .arr [.num (80 : Int)]), ("tags", .arr [.str "long"])])]) ∧
    ¬ Valid M t (.obj [("spec", .obj [("name", .str "web")])]) ∧
    Valid M t (.obj [("spec", .obj [("name", .str "web"), ("ports", .arr [.num (80 : Int)]), ("tags", .arr [.str "x"])]), ("admin", .num (80 : Int))]) := by
  have hd : ∀ u, BreakSample.env.raw ⟨"v1", "Root"⟩ = some u → u = rootRaw := fun u hu => by unfold rootRaw; rw [hu]; rfl
  obtain ⟨u, t, fst, hu, h1, h2, h3⟩ := C78_end_to_end_partial M hM (src all) false rfl (tidy names) BreakSample.G (progOf names M) mute once_all (fun _ => .fifo) 5 "v1" "Root" {} (final all "Root") .start
    all_ok (by decide +kernel) (linked names _) (fun u hu => by rw [hd u hu]; exact root_distinct) .fifo
  have e := hd u hu
  subst e
  obtain ⟨h2, -⟩ := h2 root_acyclic
  obtain ⟨h3, -⟩ := h3 rfl typed_all
  refine ⟨t, fst, h1, h2 _ (bad_port M), h2 _ (bad_tag M), h2 _ (no_ports M), ?_⟩
  refine h3 _ enc_root fun hb => h2 _ hb ?_
  obtain ⟨fst', h4⟩ := flat_ok flat_root
  rw [show flattenType (envOf (src all) (final all "Root")) .fifo ⟨"v1", "Root"⟩ {} = .ok (some t, fst) from h1] at h4
  cases h4
  exact valid_good M hM

end Verif.Crd

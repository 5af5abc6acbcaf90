import Verif.Crd.StructGen
import Verif.Crd.BreakEnd

/-!
# C79: the schemas of CRDs are structural
-/
namespace Verif.Crd
open Spec

/-- C79 (partial).  Merging turns schemas as they are generated into structural ones, at any depth, if the same keyword is not given twice for the same values.  Missing: defaults, list types, list map
keys, items or int-or-string types that are given twice for the same values (`C79_violated_default`, `C79_violated_shadowed`). -/
theorem C79_merge_partial (t : Schema) (hp : ∀ v, Sub t v → Prepared v) (ht : TypedTogether t) (h : NoTwice t) : Structural (flattenEmbedded t).1 :=
  structural_of hp ht h.default h.listType h.listMapKeys h.items h.anyOf

/-- C79 (partial), for the whole way from the source: if the parser reports no error, then the schema that results from asking for the schema of a type, flattening it and merging it, is structural.
Missing: recursive types (`C79_violated_recursive`), schemaless fields and types without a type (`C79_violated_schemaless`), and what is given twice for the same values (`C79_violated_default`,
`C79_violated_shadowed`). -/
theorem C79_structural_partial (S : Src) (b : Bool) (ho : S.overrides = addKnownTypes b) (ht : ∀ p, Tidy (S.ctx p)) (hm : ∀ p, ∀ d ∈ S.decls p, TypedMarks d) (marshal : AnyVal → Option Raw)
    (σ : Nat → Sched) (k : Nat) (p n : String) (st st' : PState) (h : Reachable S marshal σ st) (hn : S.need marshal σ k ⟨p, n⟩ st = .ok st') (he : st'.errs = 0)
    (hd : ∀ u, (envOf S st').raw ⟨p, n⟩ = some u → Distinct (envOf S st') p u ∧ AcyclicFrom (envOf S st') p u) (τ : Sched) :
    ∃ t fst, flattenType (envOf S st') τ ⟨p, n⟩ {} = .ok (some t, fst) ∧ (NoTwice t → Structural (flattenEmbedded t).1) := by
  have h' : Reachable S marshal σ st' := .schema k _ h hn
  obtain ⟨u, hu, -⟩ := C55_complete S b ho ht marshal σ k ⟨p, n⟩ st st' h hn he _ .refl
  obtain ⟨hc, hb, -⟩ := C55_closed S b ho ht marshal σ st' h' he ⟨p, n⟩ u hu
  have hg : Good (envOf S st') p u := ⟨hc, hb, (hd u hu).1⟩
  obtain ⟨t, fst, h1, -⟩ := flattenType_noRef (envOf S st') τ hu hg (st := {}) nofun
  refine ⟨t, fst, h1, fun h2 => ?_⟩
  have hx := (flattenType_expand (envOf S st') τ hu hg (st := {}) nofun h1).2 (hd u hu).2
  obtain ⟨h3, h4⟩ := expand_orderly hx (by
    intro q' s' hr
    obtain ⟨id', w, hw, rfl, hsub⟩ := reach_sub hu hr
    obtain ⟨ht', hl⟩ := schema_links ho ht h' he hw hsub
    refine ⟨(raw_solid ho hm h' he hw).1 _ hsub, ht', fun r id2 u2 hr2 hl2 => ⟨(hl r hr2).2.1, (raw_solid ho hm h' he hl2.2).2⟩⟩)
  exact C79_merge_partial t h3 (h4 (raw_solid ho hm h' he hu).2) h2

/-! ## Deciding the hypotheses -/

mutual
/-- The paths of the schemas with the feature. -/
def spots (F : Schema → Bool) : Schema → List (List (Option String))
  | .mk b it al oo an nt pr ad pa de ai df =>
    (if F (.mk b it al oo an nt pr ad pa de ai df) = true then [[]] else []) ++ spotsAll F al ++ spotsProps F pr ++ spotsAddl F ad
def spotsAll (F : Schema → Bool) : List Schema → List (List (Option String))
  | [] => []
  | s :: l => spots F s ++ spotsAll F l
def spotsProps (F : Schema → Bool) : List (String × Schema) → List (List (Option String))
  | [] => []
  | (k, s) :: l => (spots F s).map (some k :: ·) ++ spotsProps F l
def spotsAddl (F : Schema → Bool) : Option OrBool → List (List (Option String))
  | some (.mk _ (some s)) => (spots F s).map (none :: ·)
  | _ => []
end

theorem count_map_cons (x : Option String) (l : List (List (Option String))) (p : List (Option String)) :
    (l.map (x :: ·)).count p = (match p with | y :: q => if y = x then l.count q else 0 | [] => 0) := by
  induction l with
  | nil => cases p <;> simp
  | cons a l ih =>
    rw [List.map_cons, List.count_cons, ih]
    cases p with
    | nil => simp
    | cons y q =>
      by_cases h : y = x
      · subst h; simp [List.count_cons]
      · simp [h, Ne.symm h]

mutual
theorem tally_spots (F : Schema → Bool) : ∀ (s : Schema) (p : List (Option String)), tally F s p = (spots F s).count p
  | .mk b it al oo an nt pr ad pa de ai df, p => by
    rw [tally, spots, List.count_append, List.count_append, List.count_append, tallyAll_spots F al p, tallyProps_spots F pr p, tallyAddl_spots F ad p]
    congr 3
    by_cases h : F (.mk b it al oo an nt pr ad pa de ai df) = true
    · cases p <;> simp [h]
    · simp [h]
theorem tallyAll_spots (F : Schema → Bool) : ∀ (l : List Schema) (p : List (Option String)), tallyAll F l p = (spotsAll F l).count p
  | [], p => by rw [tallyAll, spotsAll]; rfl
  | s :: l, p => by rw [tallyAll, spotsAll, List.count_append, tally_spots F s p, tallyAll_spots F l p]
theorem tallyProps_spots (F : Schema → Bool) : ∀ (l : List (String × Schema)) (p : List (Option String)), tallyProps F l p = (spotsProps F l).count p
  | [], p => by rw [tallyProps, spotsProps]; rfl
  | (k, s) :: l, p => by
    rw [spotsProps, List.count_append, ← tallyProps_spots F l p, count_map_cons]
    rcases p with - | ⟨- | k', q⟩
    · simp [tallyProps]
    · simp [tallyProps]
    · simp [tallyProps, tally_spots F s q]
theorem tallyAddl_spots (F : Schema → Bool) : ∀ (o : Option OrBool) (p : List (Option String)), tallyAddl F o p = (spotsAddl F o).count p
  | none, p => by rw [tallyAddl, spotsAddl] <;> simp
  | some (.mk _ none), p => by rw [tallyAddl, spotsAddl] <;> simp
  | some (.mk _ (some s)), p => by
    rw [spotsAddl, count_map_cons]
    rcases p with - | ⟨- | k', q⟩
    · simp [tallyAddl]
    · simp [tallyAddl, tally_spots F s q]
    · simp [tallyAddl]
end

theorem allSub_of {K : Schema → Prop} {s : Schema} (L : List Schema) (h0 : s ∈ L) (hc : ∀ u ∈ L, ∀ c ∈ u.kids, c ∈ L) (hK : ∀ u ∈ L, K u) : ∀ u, Sub s u → K u := by
  intro u hu
  refine hK u ?_
  induction hu with
  | refl => exact h0
  | step h _ ih => exact ih (hc _ h0 _ (mem_kids h))

def subList : Nat → List Schema → List Schema
  | 0, l => l
  | n + 1, l => subList n (l ++ (l.flatMap Schema.kids).filter fun x => x ∉ l)

theorem lone_of {F : Schema → Bool} {s : Schema} (L : List Schema) (h0 : s ∈ L) (hc : ∀ u ∈ L, ∀ c ∈ u.kids, c ∈ L) (hK : ∀ u ∈ L, (spots F u).Nodup) : Lone F s := by
  intro u hu p
  rw [tally_spots]
  exact List.nodup_iff_count.1 (allSub_of L h0 hc hK u hu) p

def typedMarksB (d : Decl) : Bool :=
  !(BreakSample.valueMarks false d.markers).contains (.type "") && !(BreakSample.valueMarks true d.markers).contains (.type "") && d.fields.all fun f =>
    !(BreakSample.valueMarks false f.markers).contains (.type "") && !(BreakSample.valueMarks true f.markers).contains (.type "") && f.markers.all fun e => e.1 ≠ "kubebuilder:validation:Schemaless"

open BreakSample in
theorem typedMarks_of {d : Decl} (h : typedMarksB d = true) : TypedMarks d := by
  unfold typedMarksB at h
  simp only [Bool.and_eq_true, Bool.not_eq_true', List.all_eq_true, decide_eq_true_eq] at h
  have no : ∀ {l : List Mark} {m : Mark}, l.contains m = false → m ∉ l := by
    intro l m h hm
    rw [← List.contains_iff_mem, h] at hm; cases hm
  refine ⟨⟨fun hx => no h.1.1 (onValue_iff.1 hx), fun hx => no h.1.2 (onItems_iff.1 hx)⟩,
    fun f hf => ⟨fun hx => no (h.2 f hf).1.1 (onValue_iff.1 hx), fun hx => no (h.2 f hf).1.2 (onItems_iff.1 hx)⟩, ?_⟩
  intro f hf hm
  obtain ⟨v, vs, hv⟩ := hm
  exact absurd rfl ((h.2 f hf).2 ("kubebuilder:validation:Schemaless", _) (get_mem hv))

/-! ## A program that meets the hypotheses: lists, a field with its own markers for a declared type, and nested structs -/
namespace BreakSample

def rootSubs : List Schema := subList 6 [rootFlat]

theorem noTwice_root : NoTwice rootFlat where
  default := lone_of rootSubs (by decide +kernel) (by decide +kernel) (by decide +kernel)
  listType := lone_of rootSubs (by decide +kernel) (by decide +kernel) (by decide +kernel)
  listMapKeys := lone_of rootSubs (by decide +kernel) (by decide +kernel) (by decide +kernel)
  items := lone_of rootSubs (by decide +kernel) (by decide +kernel) (by decide +kernel)
  anyOf := lone_of rootSubs (by decide +kernel) (by decide +kernel) (by decide +kernel)

theorem typedMarks_all (p : String) : ∀ d ∈ (src all).decls p, TypedMarks d := by
  intro d hd
  simp only [src] at hd
  split at hd
  · simp only [all, List.mem_cons, List.not_mem_nil, or_false] at hd
    rcases hd with rfl | rfl | rfl <;> exact typedMarks_of (by decide +kernel)
  · cases hd

example : Structural (flattenEmbedded rootFlat).1 := by
  obtain ⟨fst, h1⟩ := flat_ok (ds := all) (n := "Root") (t := rootFlat) flat_root
  obtain ⟨t, fst', h2, h3⟩ := C79_structural_partial (src all) false rfl (tidy names) typedMarks_all mute (fun _ => .fifo) 5 "v1" "Root" {} (final all "Root") .start all_ok (by decide +kernel) (by
    intro u hu
    have : rootRaw = u := by unfold rootRaw env; rw [hu]; rfl
    rw [← this]
    exact ⟨root_distinct, root_acyclic⟩) .fifo
  rw [h1] at h2
  cases h2
  exact h3 noTwice_root

/-- The admin port has the type of the declared type outside of the allOf, and the two maxima within. -/
example : (flattenEmbedded rootFlat).1.properties.lookup "admin" =
    some (.mk { type := "integer", format := "int32", minimum := some 1 } none [.leaf { maximum := some 65535 }, .leaf { maximum := some 1023 }] [] [] none [] none [] [] none []) := by decide +kernel

/-! ## Programs for which the claim is false -/

/-- `type Base struct { Tags []string }` -/
def shadowBase : Decl := { name := "Base", type := .struct, fields := [field "Tags" "tags" (.array false (.ident "string"))] }
/-- `type Outer struct { Base; Tags []string }`: the field of the outer struct hides the one of the embedded struct. -/
def shadowOuter : Decl := { name := "Outer", type := .struct, fields := [{ name := "", tag := some ",inline".toList, type := .ident "Base" }, field "Tags" "tags" (.array false (.ident "string"))] }

/-- `type Mode string` with a default. -/
def mode : Decl := { name := "Mode", type := .ident "string", markers := [("kubebuilder:default", [some (.default (.str "a"))])] }
/-- `type UseMode struct { Mode Mode }` with a default for the field. -/
def useMode : Decl := { name := "UseMode", type := .struct, fields := [field "Mode" "mode" (.ident "Mode") [("kubebuilder:default", [some (.default (.str "b"))])]] }

def quoted : AnyVal → Option Raw
  | .str s => some ("\"" ++ s ++ "\"")
  | _ => none
def modeFinal : PState := match (src [mode, useMode]).need quoted (fun _ => .fifo) 5 ⟨"v1", "UseMode"⟩ {} with | .ok st => st | .error _ => {}
theorem mode_ok : (src [mode, useMode]).need quoted (fun _ => .fifo) 5 ⟨"v1", "UseMode"⟩ {} = .ok modeFinal := by
  have h : (match (src [mode, useMode]).need quoted (fun _ => .fifo) 5 ⟨"v1", "UseMode"⟩ {} with | .ok _ => true | .error _ => false) = true := by decide +kernel
  unfold modeFinal
  split
  · assumption
  · rename_i e; rw [e] at h; cases h

def modeRun : Option (Schema × FState) := match flattenType (envOf (src [mode, useMode]) modeFinal) .fifo ⟨"v1", "UseMode"⟩ {} with | .ok (some t, st) => some (t, st) | _ => none
def modeFlat : Schema := modeRun.elim .empty (·.1)
def modeCache : FState := modeRun.elim {} (·.2)

theorem modeFlat_ok : flattenType (envOf (src [mode, useMode]) modeFinal) .fifo ⟨"v1", "UseMode"⟩ {} = .ok (some modeFlat, modeCache) := by
  have h : modeRun.isSome = true := by decide +kernel
  obtain ⟨⟨t, c⟩, hx⟩ := Option.isSome_iff_exists.1 h
  unfold modeFlat modeCache
  rw [hx]
  unfold modeRun at hx
  split at hx
  · rename_i e; cases hx; exact e
  · cases hx

/-- `type Free struct { Any string }` with a schemaless field. -/
def free : Decl := { name := "Free", type := .struct, fields := [field "Any" "any" (.ident "string") [("kubebuilder:validation:Schemaless", [none])]] }

end BreakSample
open BreakSample

/-- The type does not refer to itself, which is decided by looking at the schemas that are found in `n` steps. -/
theorem acyclic_of {env : Env} {p : String} {id : TypeIdent} (n : Nat) (h0 : (p, (env.raw id).getD .empty) ∈ env.reachList n [(p, (env.raw id).getD .empty)])
    (hL : ∀ x ∈ env.reachList n [(p, (env.raw id).getD .empty)], ∀ y ∈ env.next x, y ∈ env.reachList n [(p, (env.raw id).getD .empty)] ∧ depth env (n + 2) y < depth env (n + 2) x) :
    ∀ u, env.raw id = some u → AcyclicFrom env p u := by
  intro u hu
  rw [hu] at h0 hL
  exact acyclicFrom_of _ h0 hL

/-- C79 is violated by recursive types: nothing is said about the values where the schema is cut off. -/
theorem C79_violated_recursive : ∃ (S : Src) (marshal : AnyVal → Option Raw) (σ : Nat → Sched) (k : Nat) (st : PState) (t : Schema) (fst : FState),
    S.overrides = addKnownTypes false ∧ (∀ p, Tidy (S.ctx p)) ∧ (∀ p, ∀ d ∈ S.decls p, TypedMarks d) ∧ S.need marshal σ k ⟨"v1", "Node"⟩ {} = .ok st ∧ st.errs = 0 ∧
      flattenType (envOf S st) .fifo ⟨"v1", "Node"⟩ {} = .ok (some t, fst) ∧ NoTwice t ∧ ¬ Structural (flattenEmbedded t).1 := by
  have hn : Names [node] := by decide +kernel
  obtain ⟨fst, hf⟩ := flat_ok (ds := [node]) (n := "Node") (t := (flat [node] "Node").getD .empty) (by decide +kernel)
  refine ⟨src [node], mute, fun _ => .fifo, 5, final [node] "Node", _, fst, rfl, tidy hn, ?_, run_ok (by decide +kernel), by decide +kernel, hf, ?_, ?_⟩
  · intro p d hd
    simp only [src] at hd
    split at hd
    · rw [List.mem_singleton.1 hd]; exact typedMarks_of (by decide +kernel)
    · cases hd
  · constructor <;> exact lone_of (subList 6 [(flat [node] "Node").getD .empty]) (by decide +kernel) (by decide +kernel) (by decide +kernel)
  · intro h
    have h1 : Outside (flattenEmbedded ((flat [node] "Node").getD .empty)).1 [.field "next", .field "next"] .empty :=
      .field (c := .mk { type := "object" } none [] [] [] none [("name", .leaf { type := "string", maxLength := some 3 }), ("next", .empty)] none [] [] none []) (by decide +kernel)
        (.field (c := .empty) (by decide +kernel) .here)
    have := h.typed _ _ h1
    revert this
    unfold Typed
    decide +kernel

/-- C79 is violated by schemaless fields: nothing is said about their values. -/
theorem C79_violated_schemaless : ∃ (S : Src) (marshal : AnyVal → Option Raw) (σ : Nat → Sched) (k : Nat) (st : PState) (t : Schema) (fst : FState),
    S.overrides = addKnownTypes false ∧ (∀ p, Tidy (S.ctx p)) ∧ S.need marshal σ k ⟨"v1", "Free"⟩ {} = .ok st ∧ st.errs = 0 ∧ (∀ u, (envOf S st).raw ⟨"v1", "Free"⟩ = some u →
      AcyclicFrom (envOf S st) "v1" u) ∧ flattenType (envOf S st) .fifo ⟨"v1", "Free"⟩ {} = .ok (some t, fst) ∧ NoTwice t ∧ ¬ Structural (flattenEmbedded t).1 := by
  have hn : Names [free] := by decide +kernel
  obtain ⟨fst, hf⟩ := flat_ok (ds := [free]) (n := "Free") (t := (flat [free] "Free").getD .empty) (by decide +kernel)
  refine ⟨src [free], mute, fun _ => .fifo, 5, final [free] "Free", _, fst, rfl, tidy hn, run_ok (by decide +kernel), by decide +kernel, ?_, hf, ?_, ?_⟩
  · exact acyclic_of 8 (by decide +kernel) (by decide +kernel)
  · constructor <;> exact lone_of (subList 6 [(flat [free] "Free").getD .empty]) (by decide +kernel) (by decide +kernel) (by decide +kernel)
  · intro h
    have h1 : Outside (flattenEmbedded ((flat [free] "Free").getD .empty)).1 [.field "any"] .empty := .field (c := .empty) (by decide +kernel) .here
    have := h.typed _ _ h1
    revert this
    unfold Typed
    decide +kernel

/-- C79 is violated by structs that hide a list of a struct they embed: the items of the list are specified within the allOf only. -/
theorem C79_violated_shadowed : ∃ (S : Src) (marshal : AnyVal → Option Raw) (σ : Nat → Sched) (k : Nat) (st : PState) (t : Schema) (fst : FState),
    S.overrides = addKnownTypes false ∧ (∀ p, Tidy (S.ctx p)) ∧ (∀ p, ∀ d ∈ S.decls p, TypedMarks d) ∧ S.need marshal σ k ⟨"v1", "Outer"⟩ {} = .ok st ∧ st.errs = 0 ∧
      (∀ u, (envOf S st).raw ⟨"v1", "Outer"⟩ = some u → AcyclicFrom (envOf S st) "v1" u) ∧
      flattenType (envOf S st) .fifo ⟨"v1", "Outer"⟩ {} = .ok (some t, fst) ∧ ¬ Structural (flattenEmbedded t).1 := by
  have hn : Names [shadowBase, shadowOuter] := by decide +kernel
  obtain ⟨fst, hf⟩ := flat_ok (ds := [shadowBase, shadowOuter]) (n := "Outer") (t := (flat [shadowBase, shadowOuter] "Outer").getD .empty) (by decide +kernel)
  refine ⟨src [shadowBase, shadowOuter], mute, fun _ => .fifo, 5, final [shadowBase, shadowOuter] "Outer", _, fst, rfl, tidy hn, ?_, run_ok (by decide +kernel), by decide +kernel, ?_, hf, ?_⟩
  · intro p d hd
    simp only [src] at hd
    split at hd
    · simp only [List.mem_cons, List.not_mem_nil, or_false] at hd
      rcases hd with rfl | rfl <;> exact typedMarks_of (by decide +kernel)
    · cases hd
  · exact acyclic_of 8 (by decide +kernel) (by decide +kernel)
  · intro h
    have e : (flattenEmbedded ((flat [shadowBase, shadowOuter] "Outer").getD .empty)).1.properties = [("tags", .mk { type := "array" } none
        [.mk {} (some (.mk (some (.leaf { type := "string" })) [])) [] [] [] none [] none [] [] none [], .mk {} (some (.mk (some (.leaf { type := "string" })) [])) [] [] [] none [] none [] [] none []]
        [] [] none [] none [] [] none [])] := by decide +kernel
    obtain ⟨u, hu⟩ := h.outside [.field "tags", .item] (.leaf { type := "string" }) (.field (k := "tags") (by rw [e]; exact List.mem_singleton.2 rfl)
      (.within (.allOf (List.mem_cons_self ..)) (.item rfl (.inl rfl) .here)))
    revert e hu
    generalize (flattenEmbedded ((flat [shadowBase, shadowOuter] "Outer").getD .empty)).1 = t
    intro e hu
    cases hu with
    | field h1 h2 =>
      rw [e, List.mem_singleton] at h1
      cases h1
      cases h2 with
      | item h3 => cases h3

/-- C79 is violated by defaults for a declared type and for a field of the type: the defaults are within the allOf. -/
theorem C79_violated_default : ∃ (S : Src) (marshal : AnyVal → Option Raw) (σ : Nat → Sched) (k : Nat) (st : PState) (t : Schema) (fst : FState),
    S.overrides = addKnownTypes false ∧ (∀ p, Tidy (S.ctx p)) ∧ (∀ p, ∀ d ∈ S.decls p, TypedMarks d) ∧ S.need marshal σ k ⟨"v1", "UseMode"⟩ {} = .ok st ∧ st.errs = 0 ∧
      (∀ u, (envOf S st).raw ⟨"v1", "UseMode"⟩ = some u → AcyclicFrom (envOf S st) "v1" u) ∧
      flattenType (envOf S st) .fifo ⟨"v1", "UseMode"⟩ {} = .ok (some t, fst) ∧ ¬ Structural (flattenEmbedded t).1 := by
  have hn : Names [mode, useMode] := by decide +kernel
  refine ⟨src [mode, useMode], quoted, fun _ => .fifo, 5, modeFinal, modeFlat, modeCache, rfl, tidy hn, ?_, mode_ok, by decide +kernel, ?_, modeFlat_ok, ?_⟩
  · intro p d hd
    simp only [src] at hd
    split at hd
    · simp only [List.mem_cons, List.not_mem_nil, or_false] at hd
      rcases hd with rfl | rfl <;> exact typedMarks_of (by decide +kernel)
    · cases hd
  · exact acyclic_of 8 (by decide +kernel) (by decide +kernel)
  · intro h
    have e : (flattenEmbedded modeFlat).1.properties = [("mode", .mk { type := "string" } none [.leaf { default := some "\"a\"" }, .leaf { default := some "\"b\"" }] [] [] none [] none [] [] none [])] := by
      decide +kernel
    rcases h.quiet [.field "mode"] _ (.leaf { default := some "\"a\"" }) (.field (k := "mode") (by rw [e]; exact List.mem_singleton.2 rfl) .here) (.allOf (List.mem_cons_self ..)) with h1 | h1
    · exact absurd (h1 _ _ .here).default (by decide +kernel)
    · exact absurd h1.1 (by decide +kernel)

end Verif.Crd

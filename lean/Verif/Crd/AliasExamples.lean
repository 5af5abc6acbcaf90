import Verif.Crd.BreakEnd

/-!
# C78 for aliases: a program that meets the hypotheses, and one for which the claim is false
-/
namespace Verif.Crd
open Spec
namespace AliasSample
open BreakSample (mute field mk fieldIn_iff onValue_iff onceDecl_of typedDecl_of find_mem)

/-- `type Name string`, of at most five characters. -/
def name : Decl := { name := "Name", type := .ident "string", markers := [mk "MaxLength" (.maxLength 5)] }
/-- `type Short = Name`, with markers. -/
def short (markers : MarkerSet) : Decl := { name := "Short", type := .ident "Name", markers }
/-- `type Size = int32`, at most ten. -/
def size : Decl := { name := "Size", type := .ident "int32", markers := [mk "Maximum" (.maximum 10)] }
def useShort : Field := field "Short" "short" (.ident "Short")
def useSize : Field := field "Size" "size" (.ident "Size")
/-- `type Use struct { Short Short; Size Size }` -/
def use : Decl := { name := "Use", type := .struct, fields := [useShort, useSize] }

def decls (ms : MarkerSet) : List Decl := [name, short ms, size, use]

def str : GoType := .basic ⟨.string, "string"⟩
def int : GoType := .basic ⟨.int32, "int32"⟩

def ctx (self : String) : PkgCtx where
  self := self
  ident := fun n => if self ≠ "v1" then .invalid else if n = "string" then str else if n = "int32" then int else if n = "Name" then .named (some "v1") "Name" str else
    if n = "Short" then .alias (some "v1") "Short" (.named (some "v1") "Name" str) else if n = "Size" then .alias (some "v1") "Size" int else if n = "Use" then .named (some "v1") "Use" .other else .invalid
  sel := fun _ _ => .invalid
  exported := fun _ => true

def src (ms : MarkerSet) : Src where
  ctx := ctx
  imports := fun _ _ => none
  decls := fun p => if p = "v1" then decls ms else []
  path := id
  overrides := addKnownTypes false

def prog (ms : MarkerSet) : Prog where
  ctx := ctx
  decl := fun p n => if p = "v1" then (decls ms).find? (fun d => d.name = n) else none
  foreign := fun _ _ _ => False

theorem ident_cases {p n : String} {t : GoType} (h : (ctx p).ident n = t) : t = .invalid ∨ p = "v1" ∧ (n = "string" ∧ t = str ∨ n = "int32" ∧ t = int ∨ n = "Name" ∧ t = .named (some "v1") "Name" str ∨
    n = "Short" ∧ t = .alias (some "v1") "Short" (.named (some "v1") "Name" str) ∨ n = "Size" ∧ t = .alias (some "v1") "Size" int ∨ n = "Use" ∧ t = .named (some "v1") "Use" .other) := by
  simp only [ctx] at h
  repeat' split at h
  all_goals simp_all

theorem tidy (ms : MarkerSet) (p : String) : Tidy ((src ms).ctx p) := by
  refine ⟨?_, ?_, ?_, ?_, ?_⟩
  · intro n pkg m u e
    rcases ident_cases e with e | ⟨-, ⟨-, e⟩ | ⟨-, e⟩ | ⟨-, e⟩ | ⟨-, e⟩ | ⟨-, e⟩ | ⟨-, e⟩⟩ <;> cases e <;> decide +kernel
  · intro n q a pkg m u e
    rcases ident_cases e with e | ⟨-, ⟨-, e⟩ | ⟨-, e⟩ | ⟨-, e⟩ | ⟨-, e⟩ | ⟨-, e⟩ | ⟨-, e⟩⟩ <;> cases e <;> decide +kernel
  · intro n q a pkg m u e
    rcases ident_cases e with e | ⟨-, ⟨-, e⟩ | ⟨-, e⟩ | ⟨-, e⟩ | ⟨-, e⟩ | ⟨-, e⟩ | ⟨-, e⟩⟩ <;> cases e
  · intro x n pkg m u e
    rcases e with e | e <;> cases e
  · intro n hn
    rcases ident_cases (p := p) (n := n) rfl with e | ⟨-, ⟨rfl, -⟩ | ⟨rfl, -⟩ | ⟨rfl, -⟩ | ⟨rfl, -⟩ | ⟨rfl, -⟩ | ⟨rfl, -⟩⟩
    · exact absurd e hn
    all_goals decide +kernel

theorem noOverride (ms : MarkerSet) (o : Override) : ¬ OverrideOf (src ms) "v1" o := BreakSample.noOverride [] o

theorem decl_of {ms : MarkerSet} {p n : String} {d : Decl} (h : (prog ms).decl p n = some d) : p = "v1" ∧ d ∈ decls ms ∧ d.name = n := by
  simp only [prog] at h
  split at h
  · exact ⟨‹_›, find_mem h⟩
  · cases h

theorem progOf (ms : MarkerSet) (M : Meaning) : ProgOf M (src ms) (prog ms) := by
  refine ⟨rfl, ?_, nofun⟩
  intro p n d h
  obtain ⟨rfl, hd, hn⟩ := decl_of h
  refine ⟨⟨(fun ⟨_, _, h⟩ => by cases h), fun o h => absurd h (noOverride ms o), ?_⟩, fun s ⟨o, _, _, h, _⟩ => noOverride ms o h⟩
  obtain ⟨a, b, hab⟩ := List.append_of_mem hd
  refine ⟨a, b, hab, hn, fun e he hne => ?_⟩
  have hnd : ((decls ms).map (·.name)).Nodup := by simp [decls, name, short, size, use]
  rw [hab, List.map_append, List.map_cons, List.nodup_append] at hnd
  exact (List.nodup_cons.1 hnd.2.1).1 (List.mem_map.2 ⟨e, he, hne.trans hn.symm⟩)

/-- The alias for `Name` has no markers. -/
theorem linked (st : PState) : Linked (prog []) (envOf (src []) st) := by
  refine ⟨fun _ => rfl, ?_, nofun, ?_⟩
  · intro pkg n p m h
    generalize e : ((prog []).ctx pkg).ident n = t at h
    rcases ident_cases e with e | ⟨hp, ⟨-, e⟩ | ⟨-, e⟩ | ⟨-, e⟩ | ⟨-, e⟩ | ⟨-, e⟩ | ⟨-, e⟩⟩ <;> subst e <;> cases h <;> exact ⟨by decide +kernel, fun hne => absurd hp.symm hne⟩
  · intro pkg n p a r h
    rcases ident_cases h with e | ⟨hp, ⟨-, e⟩ | ⟨-, e⟩ | ⟨-, e⟩ | ⟨hn, e⟩ | ⟨hn, e⟩ | ⟨-, e⟩⟩ <;> cases e
    · exact ⟨nofun, short [], rfl, rfl, rfl, rfl, nofun⟩
    · exact ⟨nofun, size, rfl, rfl, rfl, rfl, hp.symm, hn.symm, by rw [hn]; decide +kernel, by rw [hn]; decide +kernel, "int32", rfl⟩

def run (ms : MarkerSet) : Except Stop PState := (src ms).need mute (fun _ => .fifo) 6 ⟨"v1", "Use"⟩ {}
def final (ms : MarkerSet) : PState := match run ms with | .ok st => st | .error _ => {}

theorem run_ok {ms : MarkerSet} (h : (match run ms with | .ok _ => true | .error _ => false) = true) : run ms = .ok (final ms) := by
  unfold final
  split
  · assumption
  · rename_i e; rw [e] at h; cases h

/-- The flattened schema of `Use`. -/
def flat (ms : MarkerSet) : Option Schema :=
  match flattenType (envOf (src ms) (final ms)) .fifo ⟨"v1", "Use"⟩ {} with
  | .ok (some t, _) => some t
  | _ => none

theorem flat_ok {ms : MarkerSet} {t : Schema} (h : flat ms = some t) : ∃ fst, flattenType (envOf (src ms) (final ms)) .fifo ⟨"v1", "Use"⟩ {} = .ok (some t, fst) := by
  unfold flat at h
  split at h
  · rename_i heq; cases h; exact ⟨_, heq⟩
  · cases h

theorem i_short : included (ctx "v1") useShort = some ⟨"short", false, false⟩ := by decide +kernel
theorem i_size : included (ctx "v1") useSize = some ⟨"size", false, false⟩ := by decide +kernel

/-- A marker on the alias: at most three characters. -/
def three : MarkerSet := [mk "MaxLength" (.maxLength 3)]

theorem once {ms : MarkerSet} (hms : BreakSample.onceDeclB (short ms) = true) (p n : String) (d : Decl) (h : (prog ms).decl p n = some d) : OnceDecl d := by
  have := (decl_of h).2.1
  simp only [decls, List.mem_cons, List.not_mem_nil, or_false] at this
  rcases this with rfl | rfl | rfl | rfl
  · exact onceDecl_of (by decide +kernel)
  · exact onceDecl_of hms
  · exact onceDecl_of (by decide +kernel)
  · exact onceDecl_of (by decide +kernel)

theorem of_short {M : Meaning} {ms : MarkerSet} {v : Json} {m : List (String × Json)} (hv : m.lookup "short" = some v) (h : Breaks M mute (prog ms) (.decl "v1" "Short") v) :
    Breaks M mute (prog ms) (.decl "v1" "Use") (.obj m) := by
  refine .field (d := use) (a := []) (b := [useSize]) (by rfl) rfl rfl rfl rfl (fieldIn_iff.2 i_short) ?_ (fun ⟨_, _, h⟩ => by cases h) hv (.ident ?_)
  · intro g hg om h
    rw [List.mem_singleton.1 hg] at h
    have h := fieldIn_iff.1 h
    rw [show included ((prog ms).ctx "v1") useSize = _ from i_size] at h; simp at h
  · rw [show ((prog ms).ctx "v1").ident "Short" = .alias (some "v1") "Short" (.named (some "v1") "Name" str) from (by decide +kernel : (ctx "v1").ident "Short" = _)]
    exact .alias h

end AliasSample
open AliasSample

/-- C78 is violated by markers on an alias of a declared type of the same package: they have no effect. -/
theorem C78_violated_alias (M : Meaning) (hM : Formats M) : ∃ (S : Src) (G : Prog) (marshal : AnyVal → Option Raw) (σ : Nat → Sched) (k : Nat) (st : PState) (t : Schema) (fst : FState) (j : Json),
    S.overrides = addKnownTypes false ∧ (∀ p, Tidy (S.ctx p)) ∧ ProgOf M S G ∧ (∀ p n d, G.decl p n = some d → OnceDecl d) ∧ S.need marshal σ k ⟨"v1", "Use"⟩ {} = .ok st ∧ st.errs = 0 ∧
      flattenType (envOf S st) .fifo ⟨"v1", "Use"⟩ {} = .ok (some t, fst) ∧ Breaks M marshal G (.decl "v1" "Use") j ∧ Valid M t j := by
  obtain ⟨fst, hf⟩ := flat_ok (ms := three) (t := .mk { type := "object", required := ["short", "size"] } none [] [] [] none
    [("short", .mk {} none [.leaf { type := "string", maxLength := some 5 }, .empty] [] [] none [] none [] [] none []), ("size", .mk {} none [.leaf { type := "integer", format := "int32", maximum := some 10 }, .leaf { type := "integer", format := "int32" }] [] [] none [] none [] [] none [])]
    none [] [] none []) (by decide +kernel)
  refine ⟨src three, prog three, BreakSample.mute, fun _ => .fifo, 6, final three, _, fst, .obj [("short", .str "abcd"), ("size", .num (1 : Int))], rfl, tidy _, progOf _ M, once (by decide +kernel),
    run_ok (by decide +kernel), by decide +kernel, hf, ?_, ?_⟩
  · exact of_short rfl (.mark (d := short three) (by rfl) (.inl (.mark (.maxLength 3) (BreakSample.onValue_iff.2 (by decide +kernel)) nofun fun h => absurd (h "abcd" rfl) (by decide +kernel))))
  · refine BreakSample.valid_object (plain_ok (by simp [HasType]) (by simp) (by rintro m k ⟨⟩ hk; revert k; decide)) fun e he v hv => ?_
    simp only [List.mem_cons, List.not_mem_nil, or_false] at he
    rcases he with rfl | rfl <;> cases hv <;> refine BreakSample.valid_allOf BreakSample.empty_ok fun s hs => ?_ <;> simp only [List.mem_cons, List.not_mem_nil, or_false] at hs <;> rcases hs with rfl | rfl
    · refine BreakSample.valid_leaf ?_
      constructor <;> simp [TypeOk, HasType, MaxOk, MinOk]
      decide +kernel
    · exact BreakSample.valid_leaf BreakSample.empty_ok
    · refine BreakSample.valid_leaf ?_
      constructor <;> simp [TypeOk, HasType, MaxOk, MinOk]
      · exact ⟨1, rfl⟩
      · exact hM.int32 1 (by decide) (by decide)
      · decide +kernel
    · refine BreakSample.valid_leaf ?_
      constructor <;> simp [TypeOk, HasType, MaxOk, MinOk]
      · exact ⟨1, rfl⟩
      · exact hM.int32 1 (by decide) (by decide)

/-! ## The hypotheses of C78 are met by a program with aliases -/
namespace AliasSample
open BreakSample (mute fieldIn_iff onValue_iff acyclicFrom_of depth typedDecl_of)

def env : Env := envOf (src []) (final [])
def raw : Schema := (env.raw ⟨"v1", "Use"⟩).getD .empty
def nodes : List (String × Schema) := env.reachList 8 [("v1", raw)]

theorem raw_ok : env.raw ⟨"v1", "Use"⟩ = some raw := by decide +kernel
theorem use_acyclic : AcyclicFrom env "v1" raw := acyclicFrom_of (depth env 10) (L := nodes) (by decide +kernel) (by decide +kernel)
theorem use_distinct : Distinct env "v1" raw := distinct_of 3 (L := nodes) (by decide +kernel) (by decide +kernel) (by decide +kernel)

theorem typed (p n : String) (d : Decl) (h : (prog []).decl p n = some d) : TypedDecl ((prog []).ctx p) d := by
  obtain ⟨rfl, hd, -⟩ := decl_of h
  simp only [decls, List.mem_cons, List.not_mem_nil, or_false] at hd
  rcases hd with rfl | rfl | rfl | rfl <;> exact typedDecl_of (by decide +kernel)

theorem of_size {M : Meaning} {ms : MarkerSet} {v : Json} {m : List (String × Json)} (hv : m.lookup "size" = some v) (h : Breaks M mute (prog ms) (.decl "v1" "Size") v) :
    Breaks M mute (prog ms) (.decl "v1" "Use") (.obj m) := by
  refine .field (d := use) (a := [useShort]) (b := []) (by rfl) rfl rfl rfl rfl (fieldIn_iff.2 i_size) nofun (fun ⟨_, _, h⟩ => by cases h) hv (.ident ?_)
  rw [show ((prog ms).ctx "v1").ident "Size" = .alias (some "v1") "Size" int from (by decide +kernel : (ctx "v1").ident "Size" = _)]
  exact .alias h

/-- A name of six characters. -/
theorem long_name (M : Meaning) (m : List (String × Json)) (hm : m.lookup "short" = some (.str "abcdef")) : Breaks M mute (prog []) (.decl "v1" "Use") (.obj m) := by
  refine of_short hm (.type (d := short []) (by rfl) rfl rfl (by decide +kernel) (.ident ?_))
  rw [show ((prog []).ctx "v1").ident "Name" = .named (some "v1") "Name" str from (by decide +kernel : (ctx "v1").ident "Name" = _)]
  exact .named (.mark (d := name) (by rfl) (.inl (.mark (.maxLength 5) (onValue_iff.2 (by decide +kernel)) nofun fun h => absurd (h "abcdef" rfl) (by decide +kernel))))

/-- A size of eleven. -/
theorem large (M : Meaning) (m : List (String × Json)) (hm : m.lookup "size" = some (.num (11 : Int))) : Breaks M mute (prog []) (.decl "v1" "Use") (.obj m) :=
  of_size hm (.mark (d := size) (by rfl) (.inl (.mark (.maximum 10) (onValue_iff.2 (by decide +kernel)) nofun fun h => absurd (h _ rfl) (by decide +kernel))))

/-- C78 for this program: the name and the size are checked, although they are written with aliases. -/
example (M : Meaning) (hM : Formats M) : ∃ t fst, flattenType env .fifo ⟨"v1", "Use"⟩ {} = .ok (some t, fst) ∧ (∀ m, m.lookup "short" = some (.str "abcdef") → ¬ Valid M t (.obj m)) ∧
    (∀ m, m.lookup "size" = some (.num (11 : Int)) → ¬ Valid M t (.obj m)) ∧
    ∀ j, Enc (prog []) (.decl "v1" "Use") j → ¬ Breaks M mute (prog []) (.decl "v1" "Use") j → Valid M t j := by
  obtain ⟨u, t, fst, h1, h2, h3, h4⟩ := C78_end_to_end_partial M hM (src []) false rfl (tidy []) (prog []) (progOf [] M) mute (once (by decide +kernel)) (fun _ => .fifo) 6 "v1" "Use" {} (final []) .start
    (run_ok (by decide +kernel)) (by decide +kernel) (linked _) (fun u hu => by cases raw_ok.symm.trans hu; exact use_distinct) .fifo
  cases raw_ok.symm.trans h1
  exact ⟨t, fst, h2, fun m hm => (h3 use_acyclic).1 _ (long_name M m hm), fun m hm => (h3 use_acyclic).1 _ (large M m hm), (h4 rfl typed).1⟩

/-- Such values: `{"short": "abc", "size": 3}`. -/
example : Enc (prog []) (.decl "v1" "Use") (.obj [("short", .str "abc"), ("size", .num (3 : Int))]) := by
  refine .struct (d := use) _ (by rfl) rfl rfl rfl ?_ ?_ ?_ ?_
  · intro f hf k om v hfi _ hv
    have h := fieldIn_iff.1 hfi
    simp only [use, List.mem_cons, List.not_mem_nil, or_false] at hf
    rcases hf with rfl | rfl
    · rw [show included ((prog []).ctx "v1") useShort = _ from i_short] at h; cases h; cases hv
      refine .ident ?_
      rw [show ((prog []).ctx "v1").ident "Short" = .alias (some "v1") "Short" (.named (some "v1") "Name" str) from (by decide +kernel : (ctx "v1").ident "Short" = _)]
      refine .alias (.type (d := short []) (by rfl) rfl rfl (by decide +kernel) (.ident ?_))
      rw [show ((prog []).ctx "v1").ident "Name" = .named (some "v1") "Name" str from (by decide +kernel : (ctx "v1").ident "Name" = _)]
      refine .named (.type (d := name) (by rfl) rfl rfl (by decide +kernel) (.ident ?_))
      rw [show ((prog []).ctx "v1").ident "string" = str from (by decide +kernel : (ctx "v1").ident "string" = _)]
      exact .basic (.string _)
    · rw [show included ((prog []).ctx "v1") useSize = _ from i_size] at h; cases h; cases hv
      refine .ident ?_
      rw [show ((prog []).ctx "v1").ident "Size" = .alias (some "v1") "Size" int from (by decide +kernel : (ctx "v1").ident "Size" = _)]
      refine .alias (.type (d := size) (by rfl) rfl rfl (by decide +kernel) (.ident ?_))
      rw [show ((prog []).ctx "v1").ident "int32" = int from (by decide +kernel : (ctx "v1").ident "int32" = _)]
      exact .basic (.int 3 rfl (by decide) (by decide))
  · intro f hf k om v _ ho
    exact absurd ho ((typed "v1" "Use" use rfl).noString f hf)
  · intro f hf k om hfi _ _
    have h := fieldIn_iff.1 hfi
    simp only [use, List.mem_cons, List.not_mem_nil, or_false] at hf
    rcases hf with rfl | rfl
    · rw [show included ((prog []).ctx "v1") useShort = _ from i_short] at h; cases h; decide +kernel
    · rw [show included ((prog []).ctx "v1") useSize = _ from i_size] at h; cases h; decide +kernel
  · intro f hf k om hfi
    have h := fieldIn_iff.1 hfi
    simp only [use, List.mem_cons, List.not_mem_nil, or_false] at hf
    rcases hf with rfl | rfl
    · rw [show included ((prog []).ctx "v1") useShort = _ from i_short] at h; cases h
    · rw [show included ((prog []).ctx "v1") useSize = _ from i_size] at h; cases h

end AliasSample
end Verif.Crd
